import Verif.Lemmas.OwnerRun

/-
C70: what opening, creating and closing files and datasets leave behind, whichever calls fail.
-/

namespace Verif.Props

open Verif.Owner

/-- What an open file holds: the file object, its communicator, info and property list, the file of the under VOL, and its entry in
the registry; nothing of what the call needed meanwhile. -/
def OwnOpen (a : Args) (s : St) : Prop :=
  s.held .fp = 1 ∧ s.held .comm = 1 ∧ s.held .ufapl = 1 ∧ s.held .uo = 1 ∧
    s.held .minfo = (if a.mpio && a.minfo then 1 else 0) ∧
    s.held .info = 0 ∧ s.held .inComm = 0 ∧ s.held .inInfo = 0 ∧ s.held .sfapl = 0 ∧ s.held .ufcpl = 0

instance (a : Args) (s : St) : Decidable (OwnOpen a s) := by unfold OwnOpen; exact inferInstance

/-- The reference to the under VOL and the copy of its info that came with the property list are still held. -/
def OwnInfo (a : Args) (s : St) : Prop :=
  s.held .infoRef = (if a.info then 1 else 0) ∧ s.held .infoUnder = (if a.info && a.underInfo then 1 else 0)

instance (a : Args) (s : St) : Decidable (OwnInfo a s) := by unfold OwnInfo; exact inferInstance

/-- What a failed call has given back. -/
def OwnFailed (s : St) : Prop :=
  s.held .fp = 0 ∧ s.held .info = 0 ∧ s.held .inComm = 0 ∧ s.held .inInfo = 0 ∧ s.held .reg = 0 ∧ s.held .ufcpl = 0

instance (s : St) : Decidable (OwnFailed s) := by unfold OwnFailed; exact inferInstance

def ownOut (a : Args) (reg : Bool) : Out → Bool
  | .done s => decide (OwnOpen a s ∧ OwnInfo a s ∧ s.held .reg = (if reg && a.stat then 1 else 0))
  | .thrown s => decide (OwnFailed s)
  | .ub => false

theorem own_open (a : Args) : allOuts (fun _ => true) (open_ a) .init (ownOut a true) = true := by
  obtain ⟨i, u, m, n, s, al, r, l, ro, st⟩ := a
  have e1 : open_ ⟨i, u, m, n, s, al, r, l, ro, st⟩ = open_ ⟨i, u, m, n, false, false, false, false, false, st⟩ := rfl
  have e2 : ownOut ⟨i, u, m, n, s, al, r, l, ro, st⟩ = ownOut ⟨i, u, m, n, false, false, false, false, false, st⟩ := rfl
  rw [e1, e2]
  clear e1 e2
  revert i u m n st
  decide +kernel

theorem own_create (a : Args) : allOuts (fun _ => true) (create a) .init (ownOut a false) = true := by
  obtain ⟨i, u, m, n, s, al, r, l, ro, st⟩ := a
  have e1 : create ⟨i, u, m, n, s, al, r, l, ro, st⟩ = create ⟨i, u, m, n, s, false, r, false, false, false⟩ := rfl
  have e2 : ownOut ⟨i, u, m, n, s, al, r, l, ro, st⟩ false = ownOut ⟨i, u, m, n, s, false, r, false, false, false⟩ false := rfl
  rw [e1, e2]
  clear e1 e2
  revert i u m n s r
  decide +kernel

/-- **C70 (partial).** Opening a file, whichever calls fail, has no undefined behaviour; if it succeeds, the file is held, and of
what the call needed meanwhile only what came with the info; if it fails, the object and what the call needed meanwhile have been
released, and the file is not registered.  Not true: that a failed call leaves nothing (`C70_open_violated`), and that the info is
released (`C70_session_violated`). -/
theorem C70_open_partial {can : Tok → Bool} {a : Args} {o : Out} (h : Runs can (open_ a) .init o) :
    (∃ s, o = .done s ∧ OwnOpen a s ∧ OwnInfo a s ∧ s.held .reg = (if a.stat then 1 else 0)) ∨ (∃ s, o = .thrown s ∧ OwnFailed s) := by
  have := allOuts_sound (own_open a) h (fun _ _ => rfl)
  cases o with
  | done s => exact Or.inl ⟨s, rfl, by simpa [ownOut] using this⟩
  | thrown s => exact Or.inr ⟨s, rfl, by simpa [ownOut] using this⟩
  | ub => simp [ownOut] at this

/-- **C70 (partial).** The same for creating a file, which is not registered yet. -/
theorem C70_create_partial {can : Tok → Bool} {a : Args} {o : Out} (h : Runs can (create a) .init o) :
    (∃ s, o = .done s ∧ OwnOpen a s ∧ OwnInfo a s ∧ s.held .reg = 0) ∨ (∃ s, o = .thrown s ∧ OwnFailed s) := by
  have := allOuts_sound (own_create a) h (fun _ _ => rfl)
  cases o with
  | done s => exact Or.inl ⟨s, rfl, by simpa [ownOut] using this⟩
  | thrown s => exact Or.inr ⟨s, rfl, by simpa [ownOut] using this⟩
  | ub => simp [ownOut] at this

/-- What a failed attempt to open a file that does not exist keeps. -/
def ownLost (a : Args) : Out → Bool
  | .thrown s => decide (s.held .comm = 1 ∧ s.held .dxpl = 1 ∧ s.held .ufapl = 1 ∧ s.held .minfo = (if a.mpio && a.minfo then 1 else 0) ∧ OwnInfo a s)
  | _ => false

/-- **C70 (violated).** With any property list: an attempt to open a file that does not exist, in which everything else succeeds,
keeps a communicator, two property lists, the MPI info, and the reference and info of the under VOL. -/
theorem C70_open_violated (a : Args) : ∃ s, Runs (fun t => decide (t ≠ .uo)) (open_ a) .init (.thrown s) ∧
    s.held .comm = 1 ∧ s.held .dxpl = 1 ∧ s.held .ufapl = 1 ∧ s.held .minfo = (if a.mpio && a.minfo then 1 else 0) ∧ OwnInfo a s := by
  have key : anyOut (fun t => decide (t ≠ .uo)) (open_ a) .init (ownLost a) = true := by
    obtain ⟨i, u, m, n, s, al, r, l, ro, st⟩ := a
    have e1 : open_ ⟨i, u, m, n, s, al, r, l, ro, st⟩ = open_ ⟨i, u, m, n, false, false, false, false, false, st⟩ := rfl
    have e2 : ownLost ⟨i, u, m, n, s, al, r, l, ro, st⟩ = ownLost ⟨i, u, m, n, false, false, false, false, false, st⟩ := rfl
    rw [e1, e2]
    clear e1 e2
    revert i u m n st
    decide +kernel
  obtain ⟨o, h1, h2⟩ := anyOut_sound key
  cases o with
  | thrown s => exact ⟨s, h1, by simpa [ownLost] using h2⟩
  | done s => simp [ownLost] at h2
  | ub => simp [ownLost] at h2

def ownNoDxpl : Out → Bool
  | .done s => decide (s.held .dxpl = 0)
  | _ => false

/-- **C70 (violated).** With any property list: if the transfer property list of the file cannot be made, opening the file succeeds
without it. -/
theorem C70_dxpl_violated (a : Args) : ∃ s, Runs (fun t => decide (t ≠ .dxpl)) (open_ a) .init (.done s) ∧ s.held .dxpl = 0 := by
  have key : anyOut (fun t => decide (t ≠ .dxpl)) (open_ a) .init ownNoDxpl = true := by
    obtain ⟨i, u, m, n, s, al, r, l, ro, st⟩ := a
    have e1 : open_ ⟨i, u, m, n, s, al, r, l, ro, st⟩ = open_ ⟨i, u, m, n, false, false, false, false, false, st⟩ := rfl
    rw [e1]
    clear e1
    revert i u m n st
    decide +kernel
  obtain ⟨o, h1, h2⟩ := anyOut_sound key
  cases o with
  | done s => exact ⟨s, h1, by simpa [ownNoDxpl] using h2⟩
  | thrown s => simp [ownNoDxpl] at h2
  | ub => simp [ownNoDxpl] at h2

def ownStarted (a : Args) : Out → Bool
  | .done s => decide (OwnInfo a s ∧ s.held .info = (if a.info then 1 else 0) ∧ s.held .inComm = (if a.mpio then 1 else 0) ∧
      s.held .inInfo = (if a.mpio && a.minfo then 1 else 0))
  | .thrown s => decide (s.held .inComm = 0 ∧ s.held .inInfo = 0)
  | .ub => false

/-- **C70.** After the beginning of both calls, they hold what came with the info, and with the MPIO driver its communicator and
info. -/
theorem C70_start {can : Tok → Bool} {a : Args} {s : St} (h : Runs can (start a) .init (.done s)) : OwnInfo a s ∧
    s.held .info = (if a.info then 1 else 0) ∧ s.held .inComm = (if a.mpio then 1 else 0) ∧
      s.held .inInfo = (if a.mpio && a.minfo then 1 else 0) := by
  have key : allOuts (fun _ => true) (start a) .init (ownStarted a) = true := by
    clear h
    obtain ⟨i, u, m, n, s, al, r, l, ro, st⟩ := a
    have e1 : start ⟨i, u, m, n, s, al, r, l, ro, st⟩ = start ⟨i, u, m, n, false, false, false, false, false, false⟩ := rfl
    have e2 : ownStarted ⟨i, u, m, n, s, al, r, l, ro, st⟩ = ownStarted ⟨i, u, m, n, false, false, false, false, false, false⟩ := rfl
    rw [e1, e2]
    clear e1 e2
    revert i u m n
    decide +kernel
  simpa [ownStarted] using allOuts_sound key h (fun _ _ => rfl)

/-- What a failed attempt to create a file keeps. -/
def ownLostC (a : Args) : Out → Bool
  | .thrown s => decide (s.held .comm = 1 ∧ s.held .dxpl = 1 ∧ s.held .ufapl = 1 ∧ s.held .idx = 1 ∧ s.held .sfapl = (if a.sub then 1 else 0) ∧
      s.held .minfo = (if a.mpio && a.minfo then 1 else 0) ∧ OwnInfo a s)
  | _ => false

/-- **C70 (violated).** With any property list: an attempt to create a file that the under VOL refuses (it exists, the directory
is not writable) keeps the same, the index, and with subfiling one more property list. -/
theorem C70_create_violated (a : Args) : ∃ s, Runs (fun t => decide (t ≠ .uo)) (create a) .init (.thrown s) ∧
    s.held .comm = 1 ∧ s.held .dxpl = 1 ∧ s.held .ufapl = 1 ∧ s.held .idx = 1 ∧ s.held .sfapl = (if a.sub then 1 else 0) ∧
    s.held .minfo = (if a.mpio && a.minfo then 1 else 0) ∧ OwnInfo a s := by
  have key : anyOut (fun t => decide (t ≠ .uo)) (create a) .init (ownLostC a) = true := by
    obtain ⟨i, u, m, n, s, al, r, l, ro, st⟩ := a
    have e1 : create ⟨i, u, m, n, s, al, r, l, ro, st⟩ = create ⟨i, u, m, n, s, false, r, false, false, false⟩ := rfl
    have e2 : ownLostC ⟨i, u, m, n, s, al, r, l, ro, st⟩ = ownLostC ⟨i, u, m, n, s, false, r, false, false, false⟩ := rfl
    rw [e1, e2]
    clear e1 e2
    revert i u m n s r
    decide +kernel
  obtain ⟨o, h1, h2⟩ := anyOut_sound key
  cases o with
  | thrown s => exact ⟨s, h1, by simpa [ownLostC] using h2⟩
  | done s => simp [ownLostC] at h2
  | ub => simp [ownLostC] at h2

/-! ### Communicators run out -/

/-- What can be acquired when `live` communicators exist, of at most `limit`; `present`: the file exists.  With the MPIO driver, the
call holds one more for a while. -/
def roomFor (limit live : Nat) (a : Args) (present : Bool) : Tok → Bool
  | .comm => decide (live + (if a.mpio then 1 else 0) < limit)
  | .uo => present
  | _ => true

/-- `n` attempts to open files that do not exist, all failed, and the number of communicators that exist then. -/
inductive Misses (limit : Nat) : Nat → Nat → Prop where
  | none : Misses limit 0 0
  | miss {n live : Nat} {a : Args} {s : St} : Misses limit n live → Runs (roomFor limit live a false) (open_ a) .init (.thrown s) →
      Misses limit (n + 1) (live + s.held .comm)

def noComm : Out → Bool
  | .thrown _ => true
  | _ => false

/-- **C70 (violated).** Whatever the number of communicators MPI can manage: after that many attempts to open files that do not
exist, no file can be opened any more, although the application holds nothing. -/
theorem C70_limit_violated (limit : Nat) : ∃ live, Misses limit limit live ∧
    ∀ a o, Runs (roomFor limit live a true) (open_ a) .init o → ∃ s, o = .thrown s := by
  let a0 : Args := ⟨false, false, false, false, false, false, false, false, false, false⟩
  have miss : ∀ n ≤ limit, Misses limit n n := by
    intro n
    induction n with
    | zero => exact fun _ => .none
    | succ n ih =>
      intro hn
      obtain ⟨s, h1, h2, _⟩ := C70_open_violated a0
      have h3 : Runs (roomFor limit n a0 false) (open_ a0) .init (.thrown s) := by
        refine h1.mono (fun t ht => ?_)
        cases t <;> simp [roomFor, a0] at ht ⊢
        omega
      have := Misses.miss (ih (by omega)) h3
      rwa [h2] at this
  refine ⟨limit, miss limit (Nat.le_refl _), fun a o h => ?_⟩
  have key : allOuts (fun t => decide (t ≠ .comm)) (open_ a) .init noComm = true := by
    obtain ⟨i, u, m, n, s, al, r, l, ro, st⟩ := a
    have e1 : open_ ⟨i, u, m, n, s, al, r, l, ro, st⟩ = open_ ⟨i, u, m, n, false, false, false, false, false, st⟩ := rfl
    rw [e1]
    clear e1 h
    revert i u m n st
    decide +kernel
  have := allOuts_sound key h (fun t ht => by
    cases t <;> simp [roomFor] at ht ⊢
    omega)
  cases o with
  | thrown s => exact ⟨s, rfl⟩
  | done s => simp [noComm] at this
  | ub => simp [noComm] at this

/-! ### Sessions -/

/-- A session in which everything succeeds: the file is created or opened, the datasets `0` to `n - 1` are created or opened, and
closed, and the file is closed. -/
def OwnSession (can : Tok → Bool) (a : Args) (made : Bool) (us : Nat → DUse) (n : Nat) (s : St) : Prop :=
  ∃ s₁ s₂, Runs can (if made then .seq (create a) (postCreate a) else .seq (open_ a) (postOpen a)) .init (.done s₁) ∧
    Runs can (useDsets us n) s₁ (.done s₂) ∧ Runs can (closeFile a n) s₂ (.done s)

theorem own_open_toks (a : Args) : (Cmd.seq (open_ a) (postOpen a)).toks.all (fun t => !t.ofDset) = true := by
  obtain ⟨i, u, m, n, s, al, r, l, ro, st⟩ := a
  have e1 : open_ ⟨i, u, m, n, s, al, r, l, ro, st⟩ = open_ ⟨i, u, m, n, s, false, false, l, false, st⟩ := rfl
  have e2 : postOpen ⟨i, u, m, n, s, al, r, l, ro, st⟩ = postOpen ⟨i, u, m, n, s, false, false, l, false, st⟩ := rfl
  rw [e1, e2]
  clear e1 e2
  revert i u m n s l st
  decide +kernel

theorem own_create_toks (a : Args) : (Cmd.seq (create a) (postCreate a)).toks.all (fun t => !t.ofDset) = true := by
  obtain ⟨i, u, m, n, s, al, r, l, ro, st⟩ := a
  have e1 : create ⟨i, u, m, n, s, al, r, l, ro, st⟩ = create ⟨i, u, m, n, s, al, r, false, false, st⟩ := rfl
  have e2 : postCreate ⟨i, u, m, n, s, al, r, l, ro, st⟩ = postCreate ⟨i, u, m, n, s, al, r, false, false, st⟩ := rfl
  rw [e1, e2]
  clear e1 e2
  revert i u m n s al r st
  decide +kernel

theorem own_frame {can : Tok → Bool} {c : Cmd} {s : St} (hc : c.toks.all (fun t => !t.ofDset) = true)
    (h : Runs can c .init (.done s)) (t : Tok) (ht : t.ofDset = true) : s.held t = 0 := by
  rw [h.frame (t := t) (fun hm => by simpa [ht] using List.all_eq_true.1 hc t hm) s rfl]
  rfl

theorem own_ready {can : Tok → Bool} {a : Args} {made : Bool} (hm : made = true → a.align = false ∧ a.isLog = true) {s : St}
    (h : Runs can (if made then .seq (create a) (postCreate a) else .seq (open_ a) (postOpen a)) .init (.done s)) :
    Ready a s ∧ ∀ t, t.ofDset = true → s.held t = 0 := by
  cases made with
  | false =>
    simp only [Bool.false_eq_true, if_false] at h
    exact ⟨readyB_iff (allOuts_sound (open_ready a) h (fun _ _ => rfl)), own_frame (own_open_toks a) h⟩
  | true =>
    obtain ⟨ha, hl⟩ := hm rfl
    simp only [if_true] at h
    exact ⟨readyB_iff (allOuts_sound (create_ready a ha hl) h (fun _ _ => rfl)), own_frame (own_create_toks a) h⟩

def isDone : Out → Bool
  | .done _ => true
  | _ => false

theorem own_open_done (a : Args) : anyOut (fun _ => true) (.seq (open_ a) (postOpen a)) .init isDone = true := by
  obtain ⟨i, u, m, n, s, al, r, l, ro, st⟩ := a
  have e1 : open_ ⟨i, u, m, n, s, al, r, l, ro, st⟩ = open_ ⟨i, u, m, n, s, false, false, l, false, st⟩ := rfl
  have e2 : postOpen ⟨i, u, m, n, s, al, r, l, ro, st⟩ = postOpen ⟨i, u, m, n, s, false, false, l, false, st⟩ := rfl
  rw [e1, e2]
  clear e1 e2
  revert i u m n s l st
  decide +kernel

theorem own_create_done (a : Args) (ha : a.align = false) :
    anyOut (fun _ => true) (.seq (create a) (postCreate a)) .init isDone = true := by
  obtain ⟨i, u, m, n, s, al, r, l, ro, st⟩ := a
  simp only at ha
  subst ha
  have e1 : create ⟨i, u, m, n, s, false, r, l, ro, st⟩ = create ⟨i, u, m, n, s, false, r, false, false, st⟩ := rfl
  have e2 : postCreate ⟨i, u, m, n, s, false, r, l, ro, st⟩ = postCreate ⟨i, u, m, n, s, false, r, false, false, st⟩ := rfl
  rw [e1, e2]
  clear e1 e2
  revert i u m n s r st
  decide +kernel

theorem own_done {can : Tok → Bool} {c : Cmd} (h : anyOut can c .init isDone = true) : ∃ s, Runs can c .init (.done s) := by
  obtain ⟨o, h1, h2⟩ := anyOut_sound h
  cases o with
  | done s => exact ⟨s, h1⟩
  | thrown s => simp [isDone] at h2
  | ub => simp [isDone] at h2

/-- **C70 (partial).** A session in which everything succeeds leaves exactly: the reference to the under VOL and its info, if the
property list names an under VOL, and one datatype for every dataset; nothing if neither.  Sessions that create files with aligned
data do not get there (`C70_align_violated`). -/
theorem C70_session_partial {can : Tok → Bool} {a : Args} {made : Bool} {us : Nat → DUse} {n : Nat} {s : St}
    (hm : made = true → a.align = false ∧ a.isLog = true) (hn : a.isLog = true ∨ n = 0) (h : OwnSession can a made us n s) (t : Tok) :
    s.held t = match t with
      | .infoRef => if a.info then 1 else 0
      | .infoUnder => if a.info && a.underInfo then 1 else 0
      | .dtype i => if i < n then 1 else 0
      | _ => 0 := by
  obtain ⟨s1, s2, h1, h2, h3⟩ := h
  obtain ⟨hr, h0⟩ := own_ready hm h1
  rw [closeFile_left hr h0 (useDsets_adds hr.zspace h2).1 hn h3 t]
  cases t <;> rfl

/-- Sessions in which everything succeeds exist. -/
theorem own_session_exists {a : Args} {made : Bool} (us : Nat → DUse) (n : Nat)
    (hm : made = true → a.align = false ∧ a.isLog = true) (hn : a.isLog = true ∨ n = 0) :
    ∃ s, OwnSession (fun _ => true) a made us n s := by
  have h1 : ∃ s, Runs (fun _ => true) (if made then .seq (create a) (postCreate a) else .seq (open_ a) (postOpen a)) .init (.done s) := by
    cases made with
    | false => exact own_done (own_open_done a)
    | true => exact own_done (own_create_done a (hm rfl).1)
  obtain ⟨s1, h1⟩ := h1
  obtain ⟨s2, h2⟩ := useDsets_exists us n s1
  obtain ⟨hr, h0⟩ := own_ready hm h1
  obtain ⟨k1, k2⟩ := useDsets_adds hr.zspace h2
  obtain ⟨s3, h3⟩ := closeFile_exists hr k1 k2 hn
  exact ⟨s3, s1, s2, h1, h2, h3⟩

/-- **C70 (violated).** For every number of datasets there are sessions in which everything succeeds and which leave a datatype for
each of them, and a reference to the under VOL. -/
theorem C70_session_violated (a : Args) (us : Nat → DUse) (n : Nat) (hl : a.isLog = true) :
    ∃ s, OwnSession (fun _ => true) a false us n s ∧ (∀ i < n, s.held (.dtype i) = 1) ∧ (a.info = true → s.held .infoRef = 1) := by
  obtain ⟨s, h⟩ := own_session_exists (made := false) us n (by simp) (Or.inl hl)
  have k := C70_session_partial (by simp) (Or.inl hl) h
  refine ⟨s, h, fun i hi => ?_, fun hi => ?_⟩
  · rw [k]; simp [hi]
  · rw [k]; simp [hi]

/-! ### Failures after the file is open -/

theorem own_post_keeps (a : Args) : (postOpen a).keeps = true := by
  obtain ⟨i, u, m, n, s, al, r, l, ro, st⟩ := a
  cases s <;> cases l <;> rfl

/-- A close of a file whose log group is not open changes nothing. -/
theorem own_close_null {can : Tok → Bool} {a : Args} {n : Nat} {s : St} {o : Out} (hl : a.isLog = true) (h1 : s.isSet .sfp = true)
    (h2 : s.isSet .lgp = true) (h3 : s.held .lgp = 0) (h : Runs can (closeFile a n) s o) : o = .thrown s := by
  have h := (mem_outs _ _ _ _).1 h
  cases hr : a.rdonly <;> cases hs : a.sub <;>
  simp [closeFile, hl, hr, hs, many, onlyIf, outs, h1, h2, h3] at h <;> exact h

def ownSet (a : Args) : Out → Bool
  | .done s => decide (OwnOpen a s ∧ s.held .reg = (if a.stat then 1 else 0) ∧ s.isSet .sfp = true ∧ s.isSet .lgp = true)
  | _ => true

theorem own_open_set (a : Args) : allOuts (fun _ => true) (open_ a) .init (ownSet a) = true := by
  obtain ⟨i, u, m, n, s, al, r, l, ro, st⟩ := a
  have e1 : open_ ⟨i, u, m, n, s, al, r, l, ro, st⟩ = open_ ⟨i, u, m, n, false, false, false, false, false, st⟩ := rfl
  have e2 : ownSet ⟨i, u, m, n, s, al, r, l, ro, st⟩ = ownSet ⟨i, u, m, n, false, false, false, false, false, st⟩ := rfl
  rw [e1, e2]
  clear e1 e2
  revert i u m n st
  decide +kernel

theorem own_open_lgp (a : Args) : (open_ a).toks.all (fun t => decide (t ≠ .lgp)) = true := by
  obtain ⟨i, u, m, n, s, al, r, l, ro, st⟩ := a
  have e1 : open_ ⟨i, u, m, n, s, al, r, l, ro, st⟩ = open_ ⟨i, u, m, n, false, false, false, false, false, st⟩ := rfl
  rw [e1]
  clear e1
  revert i u m n st
  decide +kernel

theorem own_open_fh (a : Args) : (open_ a).toks.all (fun t => decide (t ≠ .fh)) = true := by
  obtain ⟨i, u, m, n, s, al, r, l, ro, st⟩ := a
  have e1 : open_ ⟨i, u, m, n, s, al, r, l, ro, st⟩ = open_ ⟨i, u, m, n, false, false, false, false, false, st⟩ := rfl
  rw [e1]
  clear e1
  revert i u m n st
  decide +kernel

/-- **C70 (violated).** If opening a log file fails after the under VOL has opened it (the log group, the subfile), everything stays
held, also the entry in the registry; and every close of the file reports a failure and releases nothing.  (`H5Fopen` gives the
application no handle; the library closes the file when it terminates.) -/
theorem C70_stuck_violated {can : Tok → Bool} {a : Args} {s s' : St} (hl : a.isLog = true) (ho : Runs can (open_ a) .init (.done s))
    (hp : Runs can (postOpen a) s (.thrown s')) (hg : s'.held .lgp = 0) :
    s'.held .fp = 1 ∧ s'.held .comm = 1 ∧ s'.held .ufapl = 1 ∧ s'.held .uo = 1 ∧ s'.held .reg = (if a.stat then 1 else 0) ∧
      ∀ n c, FileClose a n ⟨1, s'⟩ c → c = .failed ⟨0, s'⟩ := by
  have hopen := by simpa [ownSet] using allOuts_sound (own_open_set a) ho (fun _ _ => rfl)
  obtain ⟨⟨o1, o2, o3, o4, _⟩, o5, o6, o7⟩ := hopen
  have hf : ∀ t, t ∉ (postOpen a).toks → s'.held t = s.held t := fun t ht => hp.frame ht s' rfl
  have hn : ∀ t, (t = .fp ∨ t = .comm ∨ t = .ufapl ∨ t = .uo ∨ t = .reg) → t ∉ (postOpen a).toks := by
    intro t ht
    obtain ⟨i, u, m, n, s, al, r, l, ro, st⟩ := a
    cases s <;> cases l <;> rcases ht with rfl | rfl | rfl | rfl | rfl <;> simp [postOpen, many, onlyIf, nodeRank, Cmd.toks]
  have q1 := hp.set_mono o6 s' rfl
  have q2 := hp.set_mono o7 s' rfl
  refine ⟨by rw [hf _ (hn _ (by simp)), o1], by rw [hf _ (hn _ (by simp)), o2], by rw [hf _ (hn _ (by simp)), o3],
    by rw [hf _ (hn _ (by simp)), o4], by rw [hf _ (hn _ (by simp)), o5], fun n c h => ?_⟩
  cases h with
  | kept h => exact absurd rfl h
  | closed _ h => cases own_close_null hl q1 q2 hg h
  | failed _ h => cases own_close_null hl q1 q2 hg h; rfl
  | ub _ h => cases own_close_null hl q1 q2 hg h

/-- Such failures exist, with every property list and every log file: when the log group cannot be opened. -/
theorem own_stuck_exists (a : Args) (hl : a.isLog = true) : ∃ s s', Runs (fun _ => true) (open_ a) .init (.done s) ∧
    Runs (fun _ => true) (postOpen a) s (.thrown s') ∧ s'.held .lgp = 0 := by
  obtain ⟨s0, h0⟩ := own_done (own_open_done a)
  obtain ⟨s, h1, _⟩ := done_seq.1 h0
  have hl0 : s.held .lgp = 0 := by
    have : Tok.lgp ∉ (open_ a).toks := fun h => by simpa using List.all_eq_true.1 (own_open_lgp a) _ h
    rw [h1.frame this s rfl]; rfl
  refine ⟨s, s, h1, ?_, hl0⟩
  unfold postOpen
  rw [hl]
  exact .seqThrown .callFail

/-- **C70 (violated).** With every property list and every log file without subfiles: if `MPI_File_open` fails after the file has been opened, the
log group stays open, and the close of the file fails before the file of the under VOL is closed. -/
theorem C70_post_open_violated (a : Args) (hl : a.isLog = true) (hs : a.sub = false) :
    ∃ s s', Runs (fun _ => true) (open_ a) .init (.done s) ∧ Runs (fun t => decide (t ≠ .fh)) (postOpen a) s (.thrown s') ∧
      s'.held .lgp = 1 ∧ s'.held .fh = 0 ∧ ∃ s'', s''.held .uo = 1 ∧ ∀ n, FileClose a n ⟨1, s'⟩ (.failed ⟨0, s''⟩) := by
  obtain ⟨s0, h0⟩ := own_done (own_open_done a)
  obtain ⟨s, h1, _⟩ := done_seq.1 h0
  have hl0 : s.held .lgp = 0 := by
    have : Tok.lgp ∉ (open_ a).toks := fun h => by simpa using List.all_eq_true.1 (own_open_lgp a) _ h
    rw [h1.frame this s rfl]; rfl
  have hf0 : s.held .fh = 0 := by
    have : Tok.fh ∉ (open_ a).toks := fun h => by simpa using List.all_eq_true.1 (own_open_fh a) _ h
    rw [h1.frame this s rfl]; rfl
  have hu : s.held .uo = 1 := by
    rcases C70_open_partial h1 with ⟨_, e, h, _⟩ | ⟨_, e, _⟩
    · cases e; exact h.2.2.2.1
    · cases e
  have hopen := by simpa [ownSet] using allOuts_sound (own_open_set a) h1 (fun _ _ => rfl)
  have hss : s.isSet .sfp = true := hopen.2.2.1
  have hsl : s.isSet .lgp = true := hopen.2.2.2
  refine ⟨s, ((((s.mark .gcomm).add .idx).mark .idx).add .lgp).mark .fh, h1, ?_, by simp [St.mark, St.add, hl0],
    by simp [St.mark, St.add, hf0], (((((s.mark .gcomm).add .idx).mark .idx).add .lgp).mark .fh).drop .lgp,
    by simp [St.mark, St.add, St.drop, hu], fun n => .failed rfl ?_⟩
  · rw [mem_outs]
    simp [postOpen, hl, hs, many, onlyIf, outs]
  · rw [mem_outs]
    cases hr : a.rdonly <;> simp [closeFile, hl, hr, hs, many, onlyIf, outs, St.mark, St.add, St.drop, hl0, hf0, hsl, hss]

def ownNoFh : Out → Bool
  | .done s => decide (s.isSet .fh = false)
  | _ => true

theorem own_create_fh {can : Tok → Bool} {a : Args} {s : St} (hc : Runs can (create a) .init (.done s)) : s.isSet .fh = false := by
  have key : allOuts (fun _ => true) (create a) .init ownNoFh = true := by
    clear hc
    obtain ⟨i, u, m, n, s, al, r, l, ro, st⟩ := a
    have e1 : create ⟨i, u, m, n, s, al, r, l, ro, st⟩ = create ⟨i, u, m, n, s, false, r, false, false, false⟩ := rfl
    rw [e1]
    clear e1
    revert i u m n s r
    decide +kernel
  simpa [ownNoFh] using allOuts_sound key hc (fun _ _ => rfl)

/-- **C70 (violated).** Creating a file with aligned data reads `fp->fh` before it is set, unless it fails before. -/
theorem C70_align_violated {can : Tok → Bool} {a : Args} {s : St} {o : Out} (ha : a.align = true)
    (hc : Runs can (create a) .init (.done s)) (hp : Runs can (postCreate a) s o) : o = .thrown s ∨ o = .ub := by
  have hv := own_create_fh hc
  have h := (mem_outs _ _ _ _).1 hp
  simp only [postCreate, ha, many, onlyIf, outs, hv, if_true, List.flatMap_cons, List.flatMap_nil, List.append_nil, List.mem_append,
    List.mem_singleton, Bool.false_eq_true, if_false] at h
  rcases h with h | h
  · exact Or.inr h
  · exact Or.inl h

/-- **C70 (violated).** If the creation of a file with subfiling fails after the under VOL has created it (the directory of the
subfiles cannot be made), closing the file may read fields that were never set. -/
theorem C70_post_create_violated (a : Args) (hs : a.sub = true) (ha : a.align = false) (hl : a.isLog = true) (hr : a.rdonly = false) :
    ∃ s s', Runs (fun _ => true) (create a) .init (.done s) ∧ Runs (fun _ => true) (postCreate a) s (.thrown s') ∧
      s'.isSet .sfp = false ∧ ∀ n, FileClose a n ⟨1, s'⟩ .ub := by
  have key : anyOut (fun _ => true) (create a) .init (fun o => match o with
      | .done s => decide (s.isSet .sfp = false)
      | _ => false) = true := by
    clear hs ha hl hr
    obtain ⟨i, u, m, n, s, al, r, l, ro, st⟩ := a
    have e1 : create ⟨i, u, m, n, s, al, r, l, ro, st⟩ = create ⟨i, u, m, n, s, false, r, false, false, false⟩ := rfl
    rw [e1]
    clear e1
    revert i u m n s r
    decide +kernel
  obtain ⟨o, h1, h2⟩ := anyOut_sound key
  cases o with
  | thrown s => simp at h2
  | ub => simp at h2
  | done s =>
    have h3 : s.isSet .sfp = false := by simpa using h2
    refine ⟨s, s.mark .gcomm, h1, ?_, by simp [St.mark, h3], fun n => .ub rfl ?_⟩
    · rw [mem_outs]
      simp [postCreate, hs, ha, nodeRank, many, onlyIf, outs]
    · rw [mem_outs]
      simp [closeFile, hs, hl, hr, many, onlyIf, outs, set_mark, h3]

/-- Closes of the file after which it is still there. -/
inductive Closes (a : Args) (n : Nat) : FileRef → FileRef → Prop where
  | refl {f : FileRef} : Closes a n f f
  | step {f g h : FileRef} : Closes a n f g → FileClose a n g (.kept h) → Closes a n f h

/-- **C70 (violated).** After a close that failed, every further attempt to close the file reports success, and releases nothing. -/
theorem C70_retry_violated {a : Args} {n : Nat} {f f' g : FileRef} (hf : FileClose a n f (.failed f')) (hg : Closes a n f' g)
    {c : Closed} (hc : FileClose a n g c) : ∃ k, c = .kept ⟨k, f'.st⟩ := by
  have h0 : f'.refcnt = 0 := by cases hf; rfl
  have hinv : g.refcnt ≤ 0 ∧ g.st = f'.st := by
    clear hc
    induction hg with
    | refl => exact ⟨by omega, rfl⟩
    | step _ h ih =>
      obtain ⟨i1, i2⟩ := ih
      cases h with
      | kept h => exact ⟨by simp only; omega, i2⟩
  obtain ⟨h1, h2⟩ := hinv
  cases hc with
  | kept h => exact ⟨_, by rw [h2]⟩
  | closed h _ => omega
  | failed h _ => omega
  | ub h _ => omega

/-- Closes fail: every open file, when a call of the flush fails. -/
theorem own_close_fails (a : Args) (n : Nat) (s : St) (hl : a.isLog = true) (hr : a.rdonly = false) :
    FileClose a n ⟨1, s⟩ (.failed ⟨0, s⟩) := by
  refine .failed rfl ?_
  unfold closeFile
  rw [hl, hr]
  exact .seqThrown (.seqThrown .callFail)

/-- **C70 (violated).** If the last handle of a file is that of an object in it, a flush that fails when it is closed aborts the
process. -/
theorem C70_abort_violated (a : Args) (n : Nat) (s : St) (hl : a.isLog = true) (hr : a.rdonly = false) :
    ObjDelete a n ⟨1, s⟩ .aborted := by
  refine .aborted rfl (s := s) ?_
  unfold closeFile
  rw [hl, hr]
  exact .seqThrown (.seqThrown .callFail)

/-! ### Datasets -/

/-- The file is open and dataset `i` is not; `known` if its info exists. -/
structure DFree (i : Nat) (known : Bool) (s : St) : Prop where
  dp : s.held (.dp i) = 0
  duo : s.held (.duo i) = 0
  dip : s.held (.dip i) = (if known then 1 else 0)
  dcpl : s.held .dcpl = 0
  zspace : s.held .zspace = 0
  iname : s.held .iname = 0

/-- The same, but that the dataset of the under VOL may be open. -/
structure DFreeBut (i : Nat) (known : Bool) (s : St) : Prop where
  dp : s.held (.dp i) = 0
  dip : s.held (.dip i) = (if known then 1 else 0)
  dcpl : s.held .dcpl = 0
  zspace : s.held .zspace = 0
  iname : s.held .iname = 0

/-- **C70 (partial).** Opening a dataset whose name does not begin with `_` has no undefined behaviour; a failed attempt leaves
neither the object nor a new info nor the property list nor the name.  Not true: that it leaves nothing (`C70_dset_open_leak_violated`). -/
theorem C70_dset_open_partial {can : Tok → Bool} {i : Nat} {known fill : Bool} {s : St} {o : Out} (hd : DFree i known s)
    (h : Runs can (dsetOpen i false known fill) s o) : (∃ s', o = .done s') ∨ ∃ s', o = .thrown s' ∧ DFreeBut i known s' := by
  obtain ⟨d1, d2, d3, d4, d5, d6⟩ := hd
  have h := (mem_outs _ _ _ _).1 (h.mono (can' := fun _ => true) (fun _ _ => rfl))
  cases known <;> cases fill <;> simp [dsetOpen, dsetiOpen, remap, many, onlyIf, outs, Out.toThrown] at h d3 <;>
  · repeat' (refine Or.elim h ?_ ?_ <;> clear h <;> intro h)
    all_goals
      first
        | exact Or.inl ⟨_, h⟩
        | exact Or.inr ⟨_, h, by constructor <;> simp [held_add, held_drop, d1, d3, d4, d5, d6]⟩

/-- **C70 (violated).** If the name begins with `_`, every failure after the under VOL has opened the dataset frees the name twice;
only one before leaves everything as it was. -/
theorem C70_dset_open_violated {can : Tok → Bool} {i : Nat} {known fill : Bool} {s : St} {o : Out} (hd : DFree i known s)
    (h : Runs can (dsetOpen i true known fill) s o) :
    (∃ s', o = .done s') ∨ (∃ s', o = .thrown s' ∧ ∀ t, s'.held t = s.held t) ∨ o = .ub := by
  obtain ⟨d1, d2, d3, d4, d5, d6⟩ := hd
  have h := (mem_outs _ _ _ _).1 (h.mono (can' := fun _ => true) (fun _ _ => rfl))
  cases known <;> cases fill <;> simp [dsetOpen, dsetiOpen, remap, many, onlyIf, outs, Out.toThrown, held_add, held_drop, d6] at h d3 <;>
  · repeat' (refine Or.elim h ?_ ?_ <;> clear h <;> intro h)
    all_goals
      first
        | exact Or.inl ⟨_, h⟩
        | exact Or.inr (Or.inr h)
        | exact Or.inr (Or.inl ⟨_, h, by intro t; simp only [held_add, held_drop]; split <;> simp_all⟩)

/-- Such runs: the attribute with the id of the dataset cannot be read. -/
theorem C70_dset_open_ub_violated (i : Nat) (known fill : Bool) {s : St} (hi : s.held .iname = 0) :
    Runs (fun _ => true) (dsetOpen i true known fill) s .ub := by
  rw [mem_outs]
  cases known <;> cases fill <;> simp [dsetOpen, dsetiOpen, remap, many, onlyIf, outs, Out.toThrown, held_add, held_drop, hi]

/-- **C70 (violated).** Opening a dataset may fail (its fill value cannot be read) and leave the dataset of the under VOL open, and
the datatype and the memory for the fill value lost. -/
theorem C70_dset_open_leak_violated (i : Nat) {s : St} (hd : DFree i false s) : ∃ s', Runs (fun _ => true) (dsetOpen i false false true) s (.thrown s') ∧
    s'.held (.duo i) = 1 ∧ s'.held (.dtype i) = s.held (.dtype i) + 1 ∧ s'.held (.fill i) = s.held (.fill i) + 1 ∧ s'.held (.dp i) = 0 ∧
    s'.held (.dip i) = 0 := by
  obtain ⟨d1, d2, d3, d4, d5, d6⟩ := hd
  refine ⟨(((((((((s.add (.duo i)).add (.dp i)).add (.dip i)).add (.dtype i)).add .dcpl).add (.fill i)).drop (.dip i)).drop (.dp i)).drop .dcpl), ?_, ?_⟩
  · rw [mem_outs]
    simp [dsetOpen, dsetiOpen, remap, many, onlyIf, outs, Out.toThrown]
  · simp [held_add, held_drop, d1, d2, d3]

/-- **C70 (partial).** Creating a dataset has no undefined behaviour, whatever its name; a failed attempt leaves neither the object
nor the info nor the name.  Not true: that it leaves nothing (`C70_dset_create_violated`). -/
theorem C70_dset_create_partial {can : Tok → Bool} {i : Nat} {under fill asked : Bool} {s : St} {o : Out} (hd : DFree i false s)
    (h : Runs can (dsetCreate i under fill asked) s o) : (∃ s', o = .done s') ∨ ∃ s', o = .thrown s' ∧ s'.held (.dp i) = 0 ∧
      s'.held (.dip i) = 0 ∧ s'.held .iname = 0 := by
  obtain ⟨d1, d2, d3, d4, d5, d6⟩ := hd
  have h := (mem_outs _ _ _ _).1 (h.mono (can' := fun _ => true) (fun _ _ => rfl))
  cases under <;> cases fill <;> cases asked <;> simp [dsetCreate, remap, many, onlyIf, outs, Out.toThrown] at h d3 <;>
  · repeat' (refine Or.elim h ?_ ?_ <;> clear h <;> intro h)
    all_goals
      first
        | exact Or.inl ⟨_, h⟩
        | exact Or.inr ⟨_, h, by simp [held_add, held_drop, d1, d3, d6]⟩

/-- **C70 (violated).** Creating a dataset may fail (the last attribute cannot be written) and leave the dataset of the under VOL, so
that it is in the file, and its datatype, the memory for its fill value and the request. -/
theorem C70_dset_create_violated (i : Nat) (under fill asked : Bool) {s : St} (hd : DFree i false s) :
    ∃ s', Runs (fun _ => true) (dsetCreate i under fill asked) s (.thrown s') ∧
      s'.held (.duo i) = 1 ∧ s'.held (.dtype i) = s.held (.dtype i) + 1 ∧ s'.held (.fill i) = s.held (.fill i) + (if fill then 1 else 0) ∧
      s'.held .req = s.held .req + (if asked then 1 else 0) := by
  obtain ⟨d1, d2, d3, d4, d5, d6⟩ := hd
  simp only [mem_outs]
  cases under <;> cases fill <;> cases asked <;>
  simp [dsetCreate, remap, many, onlyIf, outs, Out.toThrown, or_and_right, exists_or, held_add, held_drop, d2]

/-! ### Examples -/

/-- A file without the MPIO driver, opened with the default property list. -/
def ownPlain : Args := ⟨false, false, false, false, false, false, false, true, false, true⟩

/-- One with the MPIO driver and the under VOL named, with subfiling. -/
def ownFull : Args := ⟨true, true, true, true, true, false, true, true, false, true⟩

/-- Opening succeeds with both, so the hypotheses of `C70_open_partial` and `C70_session_partial` can be met; a session with three
datasets leaves three datatypes. -/
example : ∃ s, OwnSession (fun _ => true) ownFull true (fun _ => ⟨true, true, true⟩) 3 s ∧ s.held (.dtype 0) = 1 ∧ s.held (.dtype 2) = 1 ∧
    s.held (.dtype 3) = 0 ∧ s.held .infoRef = 1 ∧ s.held .comm = 0 := by
  obtain ⟨s, h⟩ := own_session_exists (a := ownFull) (made := true) (fun _ => ⟨true, true, true⟩) 3 (by simp [ownFull]) (Or.inl rfl)
  have k := C70_session_partial (by simp [ownFull]) (Or.inl rfl) h
  refine ⟨s, h, ?_, ?_, ?_, ?_, ?_⟩ <;> rw [k] <;> simp [ownFull]

/-- A session without datasets and with the default property list leaves nothing. -/
example : ∃ s, OwnSession (fun _ => true) ownPlain false (fun _ => ⟨true, false, false⟩) 0 s ∧ ∀ t, s.held t = 0 := by
  obtain ⟨s, h⟩ := own_session_exists (a := ownPlain) (made := false) (fun _ => ⟨true, false, false⟩) 0 (by simp) (Or.inl rfl)
  refine ⟨s, h, fun t => ?_⟩
  rw [C70_session_partial (by simp) (Or.inl rfl) h]
  cases t <;> simp [ownPlain]

/-- A file that is not there: one communicator is lost. -/
example : ∃ s, Runs (roomFor 100 0 ownPlain false) (open_ ownPlain) .init (.thrown s) ∧ s.held .comm = 1 := by
  obtain ⟨s, h1, h2, _⟩ := C70_open_violated ownPlain
  exact ⟨s, h1.mono (fun t ht => by cases t <;> simp [roomFor, ownPlain] at ht ⊢), h2⟩

/-- A file whose log group cannot be opened stays registered. -/
example : ∃ s', s'.held .reg = 1 ∧ ∀ n c, FileClose ownFull n ⟨1, s'⟩ c → c = .failed ⟨0, s'⟩ := by
  obtain ⟨s, s', h1, h2, h3⟩ := own_stuck_exists ownFull rfl
  obtain ⟨_, _, _, _, h4, h5⟩ := C70_stuck_violated rfl h1 h2 h3
  exact ⟨s', by simpa [ownFull] using h4, h5⟩

/-- A close that fails, followed by three that report success. -/
example (s : St) : ∃ g, FileClose ownPlain 2 ⟨1, s⟩ (.failed ⟨0, s⟩) ∧ Closes ownPlain 2 ⟨0, s⟩ g ∧ g.refcnt = -3 ∧ g.st = s := by
  refine ⟨⟨-3, s⟩, own_close_fails _ _ _ rfl rfl, ?_, rfl, rfl⟩
  have h1 : FileClose ownPlain 2 ⟨0, s⟩ (.kept ⟨-1, s⟩) := .kept (by simp)
  have h2 : FileClose ownPlain 2 ⟨-1, s⟩ (.kept ⟨-2, s⟩) := .kept (by simp)
  have h3 : FileClose ownPlain 2 ⟨-2, s⟩ (.kept ⟨-3, s⟩) := .kept (by simp)
  exact .step (.step (.step .refl h1) h2) h3

/-- The creation of a file with aligned data gets as far as `C70_align_violated` says. -/
example : ∃ s, Runs (fun _ => true) (create { ownPlain with align := true }) .init (.done s) ∧
    Runs (fun _ => true) (postCreate { ownPlain with align := true }) s .ub := by
  obtain ⟨s0, h0⟩ := own_done (own_create_done ownPlain rfl)
  obtain ⟨s, h1, _⟩ := done_seq.1 h0
  have h2 : Runs (fun _ => true) (create { ownPlain with align := true }) .init (.done s) := h1
  refine ⟨s, h2, ?_⟩
  rw [mem_outs]
  simp [postCreate, many, onlyIf, outs, own_create_fh h2]

/-- The states in which datasets are opened and created: nothing of dataset `i` is held. -/
example : DFree 4 false St.init := by constructor <;> rfl

example : DFree 4 true (St.init.add (.dip 4)) := by constructor <;> simp [held_add, St.init]

end Verif.Props
