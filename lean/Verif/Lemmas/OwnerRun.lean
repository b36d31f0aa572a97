import Verif.Lemmas.OwnerReady

/-
Complete sessions: what is held while datasets are used, and after the file is closed.
-/

namespace Verif.Owner

/-! ### Datasets -/

/-- A resource of a dataset. -/
def Tok.ofDset : Tok → Bool
  | .dp _ => true
  | .duo _ => true
  | .dip _ => true
  | .dtype _ => true
  | .fill _ => true
  | _ => false

/-- `s'` holds, besides what `s` holds, the info of dataset `i`, its datatype, and its fill value if there is one. -/
def Adds (i : Nat) (fill : Bool) (s s' : St) : Prop :=
  ∀ t, s'.held t = s.held t + (if t = .dip i ∨ t = .dtype i ∨ (fill = true ∧ t = .fill i) then 1 else 0)

/-- The dataset is opened and closed, if all calls succeed. -/
theorem dsetOpen_adds {can : Tok → Bool} {s s' : St} {i : Nat} {under fill : Bool}
    (h : Runs can (.seq (dsetOpen i under false fill) (dsetClose i)) s (.done s')) : Adds i fill s s' ∧ s'.isSet = s.isSet := by
  have key : ∀ s1, Runs can (dsetOpen i under false fill) s (.done s1) →
      (∀ t, s1.held t = s.held t + (if t = .dip i ∨ t = .dtype i ∨ (fill = true ∧ t = .fill i) ∨ t = .duo i ∨ t = .dp i then 1 else 0)) ∧
        s1.isSet = s.isSet := by
    intro s1 h
    cases under <;> cases fill <;>
    simp only [dsetOpen, dsetiOpen, remap, onlyIf, many, done_seq, done_scope, done_get, done_own, done_call, done_put,
      done_putIf, done_skip, if_true, if_false, Bool.not_false, Bool.false_eq_true, exists_eq_left, exists_and_left, and_assoc] at h
    · obtain ⟨_, _, _, e⟩ := h
      subst e
      exact ⟨fun t => by cases t <;> simp [held_add, held_drop] <;> split <;> rfl, rfl⟩
    · obtain ⟨_, _, _, _, e⟩ := h
      subst e
      exact ⟨fun t => by cases t <;> simp [held_add, held_drop] <;> split <;> rfl, rfl⟩
    · obtain ⟨_, _, _, _, e⟩ := h
      subst e
      exact ⟨fun t => by cases t <;> simp [held_add, held_drop] <;> split <;> rfl, rfl⟩
    · obtain ⟨_, _, _, _, _, e⟩ := h
      subst e
      exact ⟨fun t => by cases t <;> simp [held_add, held_drop] <;> split <;> rfl, rfl⟩
  obtain ⟨s1, h1, h2⟩ := done_seq.1 h
  obtain ⟨k1, k2⟩ := key s1 h1
  simp only [dsetClose, many, done_seq, done_call, done_put, done_skip, exists_eq_left, exists_and_left, and_assoc] at h2
  obtain ⟨_, _, e⟩ := h2
  subst e
  refine ⟨fun t => ?_, by rw [← k2]; rfl⟩
  cases t <;> simp [held_drop, k1] <;> split <;> simp_all

/-- The dataset is created and closed, if all calls succeed. -/
theorem dsetCreate_adds {can : Tok → Bool} {s s' : St} {i : Nat} {under fill : Bool} (hz : s.held .zspace = 0)
    (h : Runs can (.seq (dsetCreate i under fill false) (dsetClose i)) s (.done s')) : Adds i fill s s' ∧ s'.isSet = s.isSet := by
  have key : ∀ s1, Runs can (dsetCreate i under fill false) s (.done s1) →
      (∀ t, s1.held t = s.held t + (if t = .dip i ∨ t = .dtype i ∨ (fill = true ∧ t = .fill i) ∨ t = .duo i ∨ t = .dp i then 1 else 0)) ∧
        s1.isSet = s.isSet := by
    intro s1 h
    cases under <;> cases fill <;>
    simp only [dsetCreate, remap, onlyIf, many, done_seq, done_scope, done_get, done_getU, done_own, done_call,
      done_putIf, done_skip, if_true, if_false, Bool.false_eq_true, exists_eq_left, exists_and_left, and_assoc,
      or_and_right, exists_or] at h
    all_goals
      rcases h with ⟨_, h⟩ | h
    all_goals
      first
        | (obtain ⟨_, _, _, e⟩ := h; subst e)
        | (obtain ⟨_, _, e⟩ := h; subst e)
      refine ⟨fun t => ?_, rfl⟩
      cases t <;> simp [held_add, held_drop, hz] <;> split <;> rfl
  obtain ⟨s1, h1, h2⟩ := done_seq.1 h
  obtain ⟨k1, k2⟩ := key s1 h1
  simp only [dsetClose, many, done_seq, done_call, done_put, done_skip, exists_eq_left, exists_and_left, and_assoc] at h2
  obtain ⟨_, _, e⟩ := h2
  subst e
  refine ⟨fun t => ?_, by rw [← k2]; rfl⟩
  cases t <;> simp [held_drop, k1] <;> split <;> simp_all

/-- How a dataset is used: it is created, or opened; its name begins with `_`; it has a fill value. -/
structure DUse where
  made : Bool
  under : Bool
  fill : Bool
deriving DecidableEq, Repr

/-- Dataset number `i` is created or opened, and closed. -/
def useDset (u : DUse) (i : Nat) : Cmd :=
  .seq (if u.made then dsetCreate i u.under u.fill false else dsetOpen i u.under false u.fill) (dsetClose i)

/-- The datasets `0` to `n - 1` are used. -/
def useDsets (us : Nat → DUse) : Nat → Cmd
  | 0 => .skip
  | n + 1 => .seq (useDsets us n) (useDset (us n) n)

theorem useDset_adds {can : Tok → Bool} {s s' : St} {i : Nat} {u : DUse} (hz : s.held .zspace = 0)
    (h : Runs can (useDset u i) s (.done s')) : Adds i u.fill s s' ∧ s'.isSet = s.isSet := by
  unfold useDset at h
  cases hm : u.made with
  | false =>
    rw [hm] at h
    exact dsetOpen_adds h
  | true =>
    rw [hm] at h
    exact dsetCreate_adds hz h

/-- What the datasets `0` to `n - 1` add. -/
def dsetToks (us : Nat → DUse) (n : Nat) : Tok → Nat
  | .dip i => if i < n then 1 else 0
  | .dtype i => if i < n then 1 else 0
  | .fill i => if i < n ∧ (us i).fill = true then 1 else 0
  | _ => 0

theorem useDsets_adds {can : Tok → Bool} {us : Nat → DUse} {n : Nat} {s s' : St} (hz : s.held .zspace = 0)
    (h : Runs can (useDsets us n) s (.done s')) : (∀ t, s'.held t = s.held t + dsetToks us n t) ∧ s'.isSet = s.isSet := by
  induction n generalizing s' with
  | zero =>
    rw [useDsets, done_skip] at h
    subst h
    refine ⟨fun t => ?_, rfl⟩
    cases t <;> simp [dsetToks]
  | succ n ih =>
    rw [useDsets, done_seq] at h
    obtain ⟨s1, h1, h2⟩ := h
    obtain ⟨i1, i2⟩ := ih h1
    obtain ⟨k1, k2⟩ := useDset_adds (by rw [i1, hz]; rfl) h2
    refine ⟨fun t => ?_, by rw [k2, i2]⟩
    rw [k1, i1]
    cases t <;> simp [dsetToks]
    · rename_i i
      by_cases h1 : i = n
      · subst h1; simp
      · by_cases h2 : i < n
        · simp [h1, h2]; omega
        · simp [h1, h2]; omega
    · rename_i i
      by_cases h1 : i = n
      · subst h1; simp
      · by_cases h2 : i < n
        · simp [h1, h2]; omega
        · simp [h1, h2]; omega
    · rename_i i
      by_cases h1 : i = n
      · subst h1; simp
      · by_cases h2 : i < n
        · have : i < n + 1 := by omega
          simp [h1, h2, this]
        · have : ¬ i < n + 1 := by omega
          simp [h1, h2, this]

/-- The infos of the datasets are released. -/
theorem closeDsets_done {can : Tok → Bool} {n : Nat} {s s' : St} :
    Runs can (closeDsets n) s (.done s') → (∀ t, s'.held t = s.held t - (match t with
        | .dip i => if i < n then 1 else 0
        | .fill i => if i < n then 1 else 0
        | _ => 0)) ∧ s'.isSet = s.isSet := by
  intro h
  induction n generalizing s' with
  | zero =>
    rw [closeDsets, done_skip] at h
    subst h
    refine ⟨fun t => ?_, rfl⟩
    cases t <;> simp
  | succ n ih =>
    simp only [closeDsets, many, done_seq, done_put, done_putIf, done_skip, exists_eq_left, exists_and_left, and_assoc] at h
    obtain ⟨s1, h1, h2, h3⟩ := h
    obtain ⟨i1, i2⟩ := ih h1
    subst h3
    refine ⟨fun t => ?_, i2⟩
    cases t <;> simp [held_drop, i1]
    · rename_i i
      by_cases h1 : i = n
      · subst h1; simp
      · have : i < n + 1 ↔ i < n := by omega
        simp [h1, this]
    · rename_i i
      by_cases h1 : i = n
      · subst h1; simp
      · have : i < n + 1 ↔ i < n := by omega
        simp [h1, this]

theorem closeDsets_exists {can : Tok → Bool} {n : Nat} {s : St} (h : ∀ i < n, 0 < s.held (.dip i)) :
    ∃ s', Runs can (closeDsets n) s (.done s') := by
  induction n with
  | zero => exact ⟨s, .skip⟩
  | succ n ih =>
    obtain ⟨s1, h1⟩ := ih (fun i hi => h i (by omega))
    refine ⟨(s1.drop (.fill n)).drop (.dip n), .seqDone h1 ?_⟩
    simp only [many, done_seq, done_put, done_putIf, done_skip, exists_eq_left, exists_and_left, and_assoc]
    refine ⟨?_, trivial⟩
    simp only [held_drop, (closeDsets_done h1).1]
    have := h n (by omega)
    simp
    exact this

/-- What stays after everything has succeeded. -/
def leftover (a : Args) (n : Nat) : Tok → Nat
  | .infoRef => if a.info then 1 else 0
  | .infoUnder => if a.info && a.underInfo then 1 else 0
  | .dtype i => if i < n then 1 else 0
  | _ => 0

theorem closeFile_left {can : Tok → Bool} {a : Args} {us : Nat → DUse} {n : Nat} {s0 s s' : St} (hr : Ready a s0)
    (h0 : ∀ t, t.ofDset = true → s0.held t = 0) (hs : ∀ t, s.held t = s0.held t + dsetToks us n t)
    (hl : a.isLog = true ∨ n = 0) (h : Runs can (closeFile a n) s (.done s')) : ∀ t, s'.held t = leftover a n t := by
  have d1 : ∀ i, s0.held (.dp i) = 0 := fun i => h0 _ rfl
  have d2 : ∀ i, s0.held (.duo i) = 0 := fun i => h0 _ rfl
  have d3 : ∀ i, s0.held (.dip i) = 0 := fun i => h0 _ rfl
  have d4 : ∀ i, s0.held (.dtype i) = 0 := fun i => h0 _ rfl
  have d5 : ∀ i, s0.held (.fill i) = 0 := fun i => h0 _ rfl
  have hdx := hr.dxpl
  have hgc := hr.gcomm
  cases hlog : a.isLog with
  | false =>
    have hn : n = 0 := by simpa [hlog] using hl
    subst hn
    simp only [closeFile, hlog, if_false, Bool.false_eq_true, many, done_seq, done_put, done_putIf, done_use, done_skip,
      exists_eq_left, exists_and_left, and_assoc] at h
    obtain ⟨_, _, _, _, _, h⟩ := h
    subst h
    intro t
    simp only [hlog, Bool.false_and, Bool.false_eq_true, if_false] at hgc
    cases t <;> simp [held_drop, hs, dsetToks, leftover, hr.fp, hr.comm, hr.ufapl, hr.uo, hr.minfo, hr.reg, hr.infoRef, hr.infoUnder,
      hr.idx, hr.lgp, hr.fh, hr.sfp, hr.fd, hr.info, hr.inComm, hr.inInfo, hr.sfapl, hr.ufcpl, hr.iname, hr.req, hr.zspace,
      hr.dcpl, hlog, d1, d2, d3, d4, d5] <;> (try split) <;> omega
  | true =>
    cases hro : a.rdonly <;> cases hal : a.align <;> cases hsub : a.sub <;>
    simp only [closeFile, hlog, hro, hal, hsub, if_true, if_false, Bool.false_eq_true, many, onlyIf, done_seq, done_put, done_putIf, done_use, done_skip,
      done_call, done_demand,
      exists_eq_left, exists_and_left, and_assoc, Bool.not_true, Bool.not_false, Bool.and_true, Bool.and_false] at h
    all_goals
      repeat (replace h := And.right h)
      obtain ⟨s1, hc, h⟩ := h
      repeat (replace h := And.right h)
      subst h
      obtain ⟨k1, _⟩ := closeDsets_done hc
      intro t
      simp only [hlog, hsub, Bool.true_and, Bool.false_eq_true, if_false, if_true] at hgc
      cases t <;> simp [held_drop, k1, hs, dsetToks, leftover, hr.fp, hr.comm, hr.ufapl, hr.uo, hr.minfo, hr.reg, hr.infoRef,
        hr.infoUnder, hr.idx, hr.lgp, hr.fh, hr.sfp, hr.fd, hr.info, hr.inComm, hr.inInfo, hr.sfapl, hr.ufcpl, hr.iname, hr.req,
        hr.zspace, hr.dcpl, hlog, hsub, d1, d2, d3, d4, d5] <;> (try split) <;> (first | omega | simp_all)

/-! ### The runs exist -/

theorem useDset_exists (u : DUse) (i : Nat) (s : St) : ∃ s', Runs (fun _ => true) (useDset u i) s (.done s') := by
  obtain ⟨m, un, f⟩ := u
  cases m <;> cases un <;> cases f <;>
  · simp [useDset, dsetOpen, dsetiOpen, dsetCreate, dsetClose, remap, onlyIf, many, done_seq, done_scope, done_get, done_getU, done_own,
      done_call, done_put, done_putIf, done_skip, held_add, held_drop, or_and_right, exists_or]

theorem useDsets_exists (us : Nat → DUse) (n : Nat) (s : St) : ∃ s', Runs (fun _ => true) (useDsets us n) s (.done s') := by
  induction n with
  | zero => exact ⟨s, .skip⟩
  | succ n ih =>
    obtain ⟨s1, h1⟩ := ih
    obtain ⟨s2, h2⟩ := useDset_exists (us n) n s1
    exact ⟨s2, .seqDone h1 h2⟩

theorem closeFile_exists {a : Args} {us : Nat → DUse} {n : Nat} {s0 s : St} (hr : Ready a s0)
    (hs : ∀ t, s.held t = s0.held t + dsetToks us n t) (hi : s.isSet = s0.isSet)
    (hl : a.isLog = true ∨ n = 0) : ∃ s', Runs (fun _ => true) (closeFile a n) s (.done s') := by
  have b1 : s.held .fp = 1 := by rw [hs, hr.fp]; rfl
  have b2 : s.held .comm = 1 := by rw [hs, hr.comm]; rfl
  have b3 : s.held .ufapl = 1 := by rw [hs, hr.ufapl]; rfl
  have b4 : s.held .uo = 1 := by rw [hs, hr.uo]; rfl
  have b5 : s.isSet .ino = true := by rw [hi, hr.ino]
  cases hlog : a.isLog with
  | false =>
    have hn : n = 0 := by simpa [hlog] using hl
    subst hn
    simp [closeFile, hlog, many, done_seq, done_put, done_putIf, done_use, done_skip, held_drop, set_drop, b1, b2, b3, b4, b5]
  | true =>
    have b6 : s.held .lgp = 1 := by rw [hs, hr.lgp]; simp [hlog, dsetToks]
    have b7 : s.held .fh = 1 := by rw [hs, hr.fh]; simp [hlog, dsetToks]
    have b8 : s.held .idx = 1 := by rw [hs, hr.idx]; simp [hlog, dsetToks]
    have b9 : ∀ v, s.isSet v = true := by rw [hi]; exact hr.set hlog
    have b10 : a.sub = true → s.held .sfp = 1 := by intro h; rw [hs, hr.sfp]; simp [hlog, h, dsetToks]
    have b11 : ∀ i < n, 0 < s.held (.dip i) := by intro i h; rw [hs]; simp [h, dsetToks]
    have hc : ∀ x : St, (∀ i < n, 0 < x.held (.dip i)) →
        ∃ s1, Runs (fun _ => true) (closeDsets n) x (.done s1) ∧ (∀ t, (∀ i, t ≠ .dip i ∧ t ≠ .fill i) → s1.held t = x.held t) ∧
          s1.isSet = x.isSet := by
      intro x hx
      obtain ⟨s1, h1⟩ := closeDsets_exists (can := fun _ => true) hx
      refine ⟨s1, h1, fun t ht => ?_, (closeDsets_done h1).2⟩
      rw [(closeDsets_done h1).1]
      split
      · exact absurd rfl (ht _).1
      · exact absurd rfl (ht _).2
      · rfl
    cases hro : a.rdonly <;> cases hal : a.align <;> cases hsub : a.sub <;>
    simp only [closeFile, hlog, hro, hal, hsub, if_true, if_false, Bool.false_eq_true, many, onlyIf, done_seq, done_put, done_putIf, done_use, done_skip,
      done_call, done_demand,
      exists_eq_left, exists_and_left, and_assoc, Bool.not_true, Bool.not_false, Bool.and_true, Bool.and_false] <;>
    simp [held_drop, set_drop, b6, b7, b9]
    all_goals
      first
        | obtain ⟨s1, h1, h2, h3⟩ := hc (((s.drop .lgp).drop .fh).drop .fd) (by intro i hi; simpa [held_drop] using b11 i hi)
          have q1 : s1.held .idx = 1 := by rw [h2 _ (by simp)]; simp [held_drop, b8]
          have q2 : s1.held .uo = 1 := by rw [h2 _ (by simp)]; simp [held_drop, b4]
          have q3 : s1.held .comm = 1 := by rw [h2 _ (by simp)]; simp [held_drop, b2]
          have q4 : s1.held .ufapl = 1 := by rw [h2 _ (by simp)]; simp [held_drop, b3]
          have q5 : s1.held .fp = 1 := by rw [h2 _ (by simp)]; simp [held_drop, b1]
          exact ⟨_, s1, h1, by simp [h3, set_drop, b9, q1, q2, q3, q4, q5]; rfl⟩
        | obtain ⟨s1, h1, h2, h3⟩ := hc ((s.drop .lgp).drop .fh) (by intro i hi; simpa [held_drop] using b11 i hi)
          have q1 : s1.held .idx = 1 := by rw [h2 _ (by simp)]; simp [held_drop, b8]
          have q2 : s1.held .uo = 1 := by rw [h2 _ (by simp)]; simp [held_drop, b4]
          have q3 : s1.held .comm = 1 := by rw [h2 _ (by simp)]; simp [held_drop, b2]
          have q4 : s1.held .ufapl = 1 := by rw [h2 _ (by simp)]; simp [held_drop, b3]
          have q5 : s1.held .fp = 1 := by rw [h2 _ (by simp)]; simp [held_drop, b1]
          have q6 : s1.held .sfp = s.held .sfp := by rw [h2 _ (by simp)]; simp [held_drop]
          first
            | exact ⟨_, s1, h1, by simp [h3, set_drop, b9, q1, q2, q3, q4, q5]; rfl⟩
            | exact ⟨_, s1, h1, by simp [h3, set_drop, b9, q1, q2, q3, q4, q5, q6, b10 hsub]; rfl⟩

end Verif.Owner
