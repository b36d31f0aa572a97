import Verif.Lemmas.Owner

/-
What is held after a file has been opened or created.
-/

namespace Verif.Owner

/-- A predicate on all outcomes, decided on the list. -/
def allOuts (can : Tok → Bool) (c : Cmd) (s : St) (p : Out → Bool) : Bool := (outs can c s).all p

theorem allOuts_sound {can can' : Tok → Bool} {c : Cmd} {s : St} {o : Out} {p : Out → Bool} (h : allOuts can' c s p = true)
    (hr : Runs can c s o) (hc : ∀ t, can t = true → can' t = true) : p o = true :=
  List.all_eq_true.1 h o ((mem_outs _ _ _ _).1 (hr.mono hc))

/-- Some outcome, found on the list. -/
def anyOut (can : Tok → Bool) (c : Cmd) (s : St) (p : Out → Bool) : Bool := (outs can c s).any p

theorem anyOut_sound {can : Tok → Bool} {c : Cmd} {s : St} {p : Out → Bool} (h : anyOut can c s p = true) :
    ∃ o, Runs can c s o ∧ p o = true := by
  obtain ⟨o, ho, hp⟩ := List.any_eq_true.1 h
  exact ⟨o, (mem_outs _ _ _ _).2 ho, hp⟩

/-- The file is open and nothing else is held, besides what the info leaves; the resources of datasets are not looked at. -/
structure Ready (a : Args) (s : St) : Prop where
  fp : s.held .fp = 1
  comm : s.held .comm = 1
  ufapl : s.held .ufapl = 1
  uo : s.held .uo = 1
  minfo : s.held .minfo = (if a.mpio && a.minfo then 1 else 0)
  reg : s.held .reg = (if a.stat then 1 else 0)
  infoRef : s.held .infoRef = (if a.info then 1 else 0)
  infoUnder : s.held .infoUnder = (if a.info && a.underInfo then 1 else 0)
  dxpl : s.held .dxpl ≤ 1
  idx : s.held .idx = (if a.isLog then 1 else 0)
  lgp : s.held .lgp = (if a.isLog then 1 else 0)
  fh : s.held .fh = (if a.isLog then 1 else 0)
  sfp : s.held .sfp = (if a.isLog && a.sub then 1 else 0)
  gcomm : s.held .gcomm ≤ (if a.isLog && a.sub then 1 else 0)
  fd : s.held .fd = 0
  info : s.held .info = 0
  inComm : s.held .inComm = 0
  inInfo : s.held .inInfo = 0
  sfapl : s.held .sfapl = 0
  ufcpl : s.held .ufcpl = 0
  iname : s.held .iname = 0
  req : s.held .req = 0
  zspace : s.held .zspace = 0
  dcpl : s.held .dcpl = 0
  ino : s.isSet .ino = true
  set : a.isLog = true → ∀ v, s.isSet v = true

/-- The same, to be computed. -/
def readyB (a : Args) (s : St) : Bool :=
  decide (s.held .fp = 1 ∧ s.held .comm = 1 ∧ s.held .ufapl = 1 ∧ s.held .uo = 1 ∧
  s.held .minfo = (if a.mpio && a.minfo then 1 else 0) ∧
  s.held .reg = (if a.stat then 1 else 0) ∧
  s.held .infoRef = (if a.info then 1 else 0) ∧
  s.held .infoUnder = (if a.info && a.underInfo then 1 else 0) ∧
  s.held .dxpl ≤ 1 ∧
  s.held .idx = (if a.isLog then 1 else 0) ∧
  s.held .lgp = (if a.isLog then 1 else 0) ∧
  s.held .fh = (if a.isLog then 1 else 0) ∧
  s.held .sfp = (if a.isLog && a.sub then 1 else 0) ∧
  s.held .gcomm ≤ (if a.isLog && a.sub then 1 else 0) ∧
  s.held .fd = 0 ∧ s.held .info = 0 ∧ s.held .inComm = 0 ∧ s.held .inInfo = 0 ∧ s.held .sfapl = 0 ∧ s.held .ufcpl = 0 ∧
  s.held .iname = 0 ∧ s.held .req = 0 ∧ s.held .zspace = 0 ∧ s.held .dcpl = 0 ∧ s.isSet .ino = true ∧
  (a.isLog = true → s.isSet .sfp = true ∧ s.isSet .lgp = true ∧ s.isSet .fh = true ∧ s.isSet .gcomm = true ∧ s.isSet .idx = true))

theorem readyB_iff {a : Args} {s : St} (h : readyB a s = true) : Ready a s := by
  obtain ⟨h1, h2, h3, h4, h5, h6, h7, h8, h9, h10, h11, h12, h13, h14, h15, h16, h17, h18, h19, h20, h21, h22, h23, h24, h25, h26⟩ :=
    of_decide_eq_true h
  refine ⟨h1, h2, h3, h4, h5, h6, h7, h8, h9, h10, h11, h12, h13, h14, h15, h16, h17, h18, h19, h20, h21, h22, h23, h24, h25, ?_⟩
  intro hl v
  have := h26 hl
  cases v
  · exact this.1
  · exact this.2.1
  · exact this.2.2.1
  · exact this.2.2.2.1
  · exact this.2.2.2.2
  · exact h25

/-- The outcome is no undefined behaviour, and if the call succeeds the file is ready. -/
def readyOut (a : Args) : Out → Bool
  | .done s => readyB a s
  | .thrown _ => true
  | .ub => false

theorem open_ready (a : Args) : allOuts (fun _ => true) (.seq (open_ a) (postOpen a)) .init (readyOut a) = true := by
  obtain ⟨i, u, m, n, s, al, r, l, ro, st⟩ := a
  have e1 : open_ ⟨i, u, m, n, s, al, r, l, ro, st⟩ = open_ ⟨i, u, m, n, s, false, false, l, false, st⟩ := rfl
  have e2 : postOpen ⟨i, u, m, n, s, al, r, l, ro, st⟩ = postOpen ⟨i, u, m, n, s, false, false, l, false, st⟩ := rfl
  have e3 : readyOut ⟨i, u, m, n, s, al, r, l, ro, st⟩ = readyOut ⟨i, u, m, n, s, false, false, l, false, st⟩ := rfl
  rw [e1, e2, e3]
  clear e1 e2 e3
  revert i u m n s l st
  decide +kernel

theorem create_ready (a : Args) (ha : a.align = false) (hl : a.isLog = true) :
    allOuts (fun _ => true) (.seq (create a) (postCreate a)) .init (readyOut a) = true := by
  obtain ⟨i, u, m, n, s, al, r, l, ro, st⟩ := a
  simp only at ha hl
  subst ha hl
  have e3 : readyOut ⟨i, u, m, n, s, false, r, true, ro, st⟩ = readyOut ⟨i, u, m, n, s, false, r, true, false, st⟩ := rfl
  have e1 : create ⟨i, u, m, n, s, false, r, true, ro, st⟩ = create ⟨i, u, m, n, s, false, r, true, false, st⟩ := rfl
  have e2 : postCreate ⟨i, u, m, n, s, false, r, true, ro, st⟩ = postCreate ⟨i, u, m, n, s, false, r, true, false, st⟩ := rfl
  rw [e1, e2, e3]
  clear e1 e2 e3
  revert i u m n s r st
  decide +kernel

end Verif.Owner
