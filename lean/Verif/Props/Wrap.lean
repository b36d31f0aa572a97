import Mathlib.Data.List.Count
import Verif.Model.Wrap

/-
C72: the handles of any number of files and objects, log-based or ordinary, the wrap contexts, and the references to the
connector below.
-/

namespace Verif.Props

/-! ### What the library does -/

/-- A handle of the library: whether its type is `H5I_FILE`, and the pointer it got from the connector. -/
structure Hd where
  isFile : Bool
  ptr : Ptr
deriving DecidableEq, Repr

/-- What the library holds: handles and wrap contexts (with their file).  `lost` counts the failed calls that get or free a
context, `stuck` lists the files of failed `H5Dopen`s in ordinary files. -/
structure Lib where
  handles : List Hd
  ctxs : List Nat
  lost : Nat
  stuck : List Nat
deriving DecidableEq, Repr

/-- A call of the library: `i` is the position of a handle, `c` that of a context.  The results of the connector below are
arbitrary. -/
inductive WCall where
  | openFile (logBased : Bool)
  | reopen (i : Nat)
  | openObj (i : Nat) (dset : Bool) (r : Option Nat)
  | close (i : Nat) (ok : Bool)
  | getCtx (i : Nat) (ok : Bool)
  | wrap (c uo : Nat) (isFile : Bool) (r : Option Nat)
  | unwrap (i : Nat)
  | freeCtx (c : Nat) (ok : Bool)
deriving DecidableEq, Repr

/-- The file of the handle. -/
def Hd.on (f : Nat) (h : Hd) : Bool := h.ptr.fp == f

/-- The library makes the call: handles and contexts exist, only files are reopened, objects are wrapped while a handle of
their file is open. -/
def WCall.allowed (l : Lib) : WCall → Prop
  | .openFile _ => True
  | .reopen i => ∃ h, l.handles[i]? = some h ∧ h.isFile = true
  | .openObj i _ _ => i < l.handles.length
  | .close i _ => i < l.handles.length
  | .getCtx i _ => i < l.handles.length
  | .wrap c _ _ _ => ∃ f, l.ctxs[c]? = some f ∧ l.handles.any (Hd.on f) = true
  | .unwrap i => i < l.handles.length
  | .freeCtx c _ => c < l.ctxs.length

/-- A new handle, if the connector returned one. -/
def Lib.add (l : Lib) (isFile : Bool) : Option Ptr → Lib
  | some p => { l with handles := l.handles ++ [⟨isFile, p⟩] }
  | none => l

/-- The file of a pointer is ordinary. -/
def isPlain (w : World) (f : Nat) : Bool := (w.files[f]?).any (fun F => !F.logBased)

/-- One call. -/
def wstep (w : World) (l : Lib) : WCall → Res (World × Lib)
  | .openFile lb => .ok ((wopen w lb).2, l.add true (some (wopen w lb).1))
  | .reopen i =>
    match l.handles[i]? with
    | none => .err
    | some h => (wreopen w h.ptr).bind fun (p, w) => .ok (w, l.add true (some p))
  | .openObj i dset r =>
    match l.handles[i]? with
    | none => .err
    | some h => (wopenObj w h.ptr dset r).bind fun (p, w') => .ok (w',
        if r = none ∧ dset = true ∧ isPlain w h.ptr.fp = true then { l with stuck := h.ptr.fp :: l.stuck } else l.add false p)
  | .close i ok =>
    match l.handles[i]? with
    | none => .err
    | some h =>
      if h.isFile then (wcloseFile w h.ptr).bind fun w => .ok (w, { l with handles := l.handles.eraseIdx i })
      else (wcloseObj w ok h.ptr).bind fun (b, w) => .ok (w, if b then { l with handles := l.handles.eraseIdx i } else l)
  | .getCtx i ok =>
    match l.handles[i]? with
    | none => .err
    | some h => (wgetCtx w h.ptr ok).bind fun (c, w) => .ok (w,
        match c with
        | some f => { l with ctxs := l.ctxs ++ [f] }
        | none => { l with lost := l.lost + 1 })
  | .wrap c uo isFile r =>
    match l.ctxs[c]? with
    | none => .err
    | some f => (wwrap w f uo isFile r).bind fun (p, w) => .ok (w, l.add isFile p)
  | .unwrap i =>
    match l.handles[i]? with
    | none => .err
    | some h => (wunwrap w h.ptr).bind fun (_, w) => .ok (w, { l with handles := l.handles.eraseIdx i })
  | .freeCtx c ok => (wfreeCtx w ok).bind fun (b, w) => .ok (w,
      { l with ctxs := l.ctxs.eraseIdx c, lost := if b then l.lost else l.lost + 1 })

/-- A sequence of calls. -/
def wrun (w : World) (l : Lib) : List WCall → Res (World × Lib)
  | [] => .ok (w, l)
  | c :: r => (wstep w l c).bind fun (w, l) => wrun w l r

/-- Every call is one the library makes, in the state it finds. -/
def WOK (w : World) (l : Lib) : List WCall → Prop
  | [] => True
  | c :: r => c.allowed l ∧ ∀ w' l', wstep w l c = .ok (w', l') → WOK w' l' r

/-- No file handle is got from a context, and no file handle is unwrapped. -/
def NoFileWrap (w : World) (l : Lib) : List WCall → Prop
  | [] => True
  | c :: r => (∀ k uo x, c ≠ .wrap k uo true x) ∧ (∀ i h, c = .unwrap i → l.handles[i]? = some h → h.isFile = false) ∧
      ∀ w' l', wstep w l c = .ok (w', l') → NoFileWrap w' l' r

/-! ### Invariant -/

/-- Counts of the file `f`: handles of the library and structures left behind. -/
def usersOf (l : Lib) (f : Nat) : Nat := l.handles.countP (Hd.on f) + l.stuck.count f

structure WInv (w : World) (l : Lib) : Prop where
  kind : ∀ h ∈ l.handles, h.ptr.fp < w.files.length ∧ (h.isFile = true ↔ h.ptr = .file h.ptr.fp)
  stk : ∀ f ∈ l.stuck, f < w.files.length
  file : ∀ (f : Nat) (F : WFile), w.files[f]? = some F →
    F.refcnt = usersOf l f ∧ (F.alive = true ↔ 0 < usersOf l f) ∧ F.closes = if F.alive then 0 else 1
  refs : w.urefs = w.files.countP (·.alive) + l.handles.countP (fun h => !h.isFile) + l.ctxs.length + l.lost + l.stuck.length

theorem winv_empty : WInv ⟨[], 0⟩ ⟨[], [], 0, []⟩ := ⟨by simp, by simp, by simp, by simp⟩

theorem countP_set_alive {l : List WFile} {f : Nat} {F G : WFile} (h : l[f]? = some F) :
    ((l.set f G).countP (·.alive) : Int) = l.countP (·.alive) + (if G.alive then 1 else 0) - (if F.alive then 1 else 0) := by
  induction l generalizing f with
  | nil => simp at h
  | cons a l ih =>
    cases f with
    | zero =>
      simp only [List.getElem?_cons_zero, Option.some.injEq] at h
      subst h
      simp only [List.set_cons_zero, List.countP_cons]
      cases a.alive <;> cases G.alive <;> simp
    | succ f =>
      simp only [List.getElem?_cons_succ] at h
      simp only [List.set_cons_succ, List.countP_cons]
      have := ih h
      split <;> omega

theorem countP_eraseIdx {α : Type} (p : α → Bool) {l : List α} {i : Nat} {x : α} (h : l[i]? = some x) :
    ((l.eraseIdx i).countP p : Int) = l.countP p - (if p x then 1 else 0) := by
  induction l generalizing i with
  | nil => simp at h
  | cons a l ih =>
    cases i with
    | zero =>
      simp only [List.getElem?_cons_zero, Option.some.injEq] at h
      subst h
      simp only [List.eraseIdx_cons_zero, List.countP_cons]
      split <;> simp
    | succ i =>
      simp only [List.getElem?_cons_succ] at h
      simp only [List.eraseIdx_cons_succ, List.countP_cons]
      have := ih h
      split <;> omega

theorem countP_pos_of_getElem? {α : Type} {p : α → Bool} {l : List α} {i : Nat} {x : α} (h : l[i]? = some x) (hp : p x = true) :
    0 < l.countP p := List.countP_pos_iff.mpr ⟨x, List.mem_of_getElem? h, hp⟩

/-- A file that is in use exists. -/
theorem WInv.use {w : World} {l : Lib} (hi : WInv w l) {f : Nat} (hf : f < w.files.length) (hu : 0 < usersOf l f) :
    ∃ F, w.files[f]? = some F ∧ F.alive = true ∧ F.refcnt = usersOf l f ∧ F.closes = 0 ∧ useFile w f = .ok F := by
  obtain ⟨F, hF⟩ : ∃ F, w.files[f]? = some F := ⟨_, List.getElem?_eq_getElem hf⟩
  obtain ⟨h1, h2, h3⟩ := hi.file f F hF
  have ha := h2.mpr hu
  exact ⟨F, hF, ha, h1, by rw [h3, if_pos ha], by simp [useFile, hF, ha]⟩

theorem WInv.alive_pos {w : World} {f : Nat} {F : WFile} (h : w.files[f]? = some F) (ha : F.alive = true) :
    0 < w.files.countP (·.alive) := countP_pos_of_getElem? h ha

/-- A new handle or structure on a file in use. -/
theorem WInv.inc {w : World} {l l' : Lib} (hi : WInv w l) {f : Nat} (hf : f < w.files.length) (hu : 0 < usersOf l f)
    (hk : ∀ h ∈ l'.handles, h ∈ l.handles ∨ (h.ptr.fp = f ∧ (h.isFile = true ↔ h.ptr = .file h.ptr.fp)))
    (hs : ∀ g ∈ l'.stuck, g ∈ l.stuck ∨ g = f)
    (hc : ∀ g, usersOf l' g = usersOf l g + if g = f then 1 else 0) {u : Int}
    (hr : w.urefs + u = w.files.countP (·.alive) + l'.handles.countP (fun h => !h.isFile) + l'.ctxs.length + l'.lost +
      l'.stuck.length) :
    ∃ w', wincRef w f = .ok w' ∧ WInv { w' with urefs := w'.urefs + u } l' := by
  obtain ⟨F, hF, ha, hrc, hcl, huse⟩ := hi.use hf hu
  simp only [wincRef, huse, Res.bind]
  refine ⟨_, rfl, ?_⟩
  constructor
  · intro h hh
    simp only [List.length_set]
    rcases hk h hh with hh | ⟨e, hh⟩
    · exact hi.kind h hh
    · exact ⟨e ▸ hf, hh⟩
  · intro g hg
    simp only [List.length_set]
    rcases hs g hg with hg | rfl
    · exact hi.stk g hg
    · exact hf
  · intro g G hG
    simp only [List.getElem?_set] at hG
    by_cases e : f = g
    · subst e
      simp only [hf, if_true, Option.some.injEq] at hG
      subst hG
      rw [hc f, if_pos rfl]
      refine ⟨by simp only [hrc]; omega, by simp [ha], by simp [ha, hcl]⟩
    · rw [if_neg e] at hG
      rw [hc g, if_neg (fun h => e h.symm)]
      exact hi.file g G hG
  · have := countP_set_alive (G := { F with refcnt := F.refcnt + 1 }) hF
    rw [if_pos (show ({ F with refcnt := F.refcnt + 1 } : WFile).alive = true from ha)] at this
    simp only
    omega

/-- One user of a file less. -/
theorem WInv.dec {w : World} {l l' : Lib} (hi : WInv w l) {f : Nat} (hf : f < w.files.length) (hu : 0 < usersOf l f)
    (hk : ∀ h ∈ l'.handles, h ∈ l.handles) (hs : ∀ g ∈ l'.stuck, g ∈ l.stuck)
    (hc : ∀ g, (usersOf l' g : Int) = usersOf l g - if g = f then 1 else 0) {u : Int}
    (hr : w.urefs + u = w.files.countP (·.alive) + l'.handles.countP (fun h => !h.isFile) + l'.ctxs.length + l'.lost +
      l'.stuck.length) :
    ∃ w', wdecRef w f = .ok w' ∧ WInv { w' with urefs := w'.urefs + u } l' := by
  obtain ⟨F, hF, ha, hrc, hcl, huse⟩ := hi.use hf hu
  have hcf := hc f
  rw [if_pos rfl] at hcf
  simp only [wdecRef, huse, Res.bind]
  by_cases hz : F.refcnt - 1 = 0
  · rw [if_pos hz]
    refine ⟨_, rfl, ?_⟩
    constructor
    · intro h hh
      simp only [List.length_set]
      exact hi.kind h (hk h hh)
    · intro g hg
      simp only [List.length_set]
      exact hi.stk g (hs g hg)
    · intro g G hG
      simp only [List.getElem?_set] at hG
      by_cases e : f = g
      · subst e
        simp only [hf, if_true, Option.some.injEq] at hG
        subst hG
        refine ⟨by simp only; omega, ?_, by simp [hcl]⟩
        simp only [Bool.false_eq_true, false_iff]
        omega
      · rw [if_neg e] at hG
        have hcg := hc g
        rw [if_neg (fun h => e h.symm)] at hcg
        have : usersOf l' g = usersOf l g := by omega
        rw [this]
        exact hi.file g G hG
    · have := countP_set_alive (G := { F with refcnt := 0, alive := false, closes := F.closes + 1 }) hF
      simp only [ha, if_true, Bool.false_eq_true, if_false] at this
      simp only
      omega
  · rw [if_neg hz]
    refine ⟨_, rfl, ?_⟩
    constructor
    · intro h hh
      simp only [List.length_set]
      exact hi.kind h (hk h hh)
    · intro g hg
      simp only [List.length_set]
      exact hi.stk g (hs g hg)
    · intro g G hG
      simp only [List.getElem?_set] at hG
      by_cases e : f = g
      · subst e
        simp only [hf, if_true, Option.some.injEq] at hG
        subst hG
        refine ⟨by simp only; omega, ?_, by simp [ha, hcl]⟩
        simp only [ha, true_iff]
        omega
      · rw [if_neg e] at hG
        have hcg := hc g
        rw [if_neg (fun h => e h.symm)] at hcg
        have : usersOf l' g = usersOf l g := by omega
        rw [this]
        exact hi.file g G hG
    · have := countP_set_alive (G := { F with refcnt := F.refcnt - 1 }) hF
      rw [if_pos (show ({ F with refcnt := F.refcnt - 1 } : WFile).alive = true from ha)] at this
      simp only
      omega

theorem WInv.inc0 {w : World} {l l' : Lib} (hi : WInv w l) {f : Nat} (hf : f < w.files.length) (hu : 0 < usersOf l f)
    (hk : ∀ h ∈ l'.handles, h ∈ l.handles ∨ (h.ptr.fp = f ∧ (h.isFile = true ↔ h.ptr = .file h.ptr.fp)))
    (hs : ∀ g ∈ l'.stuck, g ∈ l.stuck ∨ g = f)
    (hc : ∀ g, usersOf l' g = usersOf l g + if g = f then 1 else 0)
    (hr : w.urefs = w.files.countP (·.alive) + l'.handles.countP (fun h => !h.isFile) + l'.ctxs.length + l'.lost +
      l'.stuck.length) :
    ∃ w', wincRef w f = .ok w' ∧ WInv w' l' := by
  obtain ⟨w', h1, h2⟩ := hi.inc (u := 0) hf hu hk hs hc (by simpa using hr)
  exact ⟨w', h1, by simpa using h2⟩

theorem WInv.dec0 {w : World} {l l' : Lib} (hi : WInv w l) {f : Nat} (hf : f < w.files.length) (hu : 0 < usersOf l f)
    (hk : ∀ h ∈ l'.handles, h ∈ l.handles) (hs : ∀ g ∈ l'.stuck, g ∈ l.stuck)
    (hc : ∀ g, (usersOf l' g : Int) = usersOf l g - if g = f then 1 else 0)
    (hr : w.urefs = w.files.countP (·.alive) + l'.handles.countP (fun h => !h.isFile) + l'.ctxs.length + l'.lost +
      l'.stuck.length) :
    ∃ w', wdecRef w f = .ok w' ∧ WInv w' l' := by
  obtain ⟨w', h1, h2⟩ := hi.dec (u := 0) hf hu hk hs hc (by simpa using hr)
  exact ⟨w', h1, by simpa using h2⟩

theorem WInv.vol {w : World} {l : Lib} (hi : WInv w l) {f : Nat} (hf : f < w.files.length) (hu : 0 < usersOf l f) :
    useVol w = .ok () := by
  obtain ⟨F, hF, ha, _⟩ := hi.use hf hu
  have := WInv.alive_pos hF ha
  have := hi.refs
  unfold useVol
  rw [if_pos (by omega)]

theorem usersOf_handle {l : Lib} {i : Nat} {h : Hd} (hh : l.handles[i]? = some h) : 0 < usersOf l h.ptr.fp := by
  have := countP_pos_of_getElem? (p := Hd.on h.ptr.fp) hh (by simp [Hd.on])
  unfold usersOf
  omega

/-- A structure for a new object: it is counted as left behind until it is given to the library. -/
theorem WInv.new {w : World} {l : Lib} (hi : WInv w l) {f : Nat} (hf : f < w.files.length) (hu : 0 < usersOf l f) (r : Option Nat) :
    ∃ w', wnew w f r = .ok (.obj f r, w') ∧ WInv w' { l with stuck := f :: l.stuck } ∧
      WInv w' { l with handles := l.handles ++ [⟨false, .obj f r⟩] } := by
  obtain ⟨w1, h1, h2⟩ := hi.inc (u := 1) (l' := { l with stuck := f :: l.stuck }) hf hu (fun h hh => .inl hh)
    (fun g hg => by simp at hg; tauto) (fun g => by
      simp only [usersOf, List.count_cons, beq_iff_eq]
      split <;> split <;> omega) (by
      have := hi.refs
      simp only [List.length_cons]
      omega)
  obtain ⟨w2, h3, h4⟩ := hi.inc (u := 1) (l' := { l with handles := l.handles ++ [⟨false, .obj f r⟩] }) hf hu
    (fun h hh => by
      rcases List.mem_append.mp hh with hh | hh
      · exact .inl hh
      · simp only [List.mem_singleton] at hh
        subst hh
        exact .inr ⟨rfl, by simp⟩)
    (fun g hg => .inl hg) (fun g => by
      simp only [usersOf, List.countP_append, List.countP_singleton, Hd.on, Ptr.fp, beq_iff_eq]
      split <;> split <;> omega) (by
      have := hi.refs
      simp only [List.countP_append, List.countP_singleton]
      simp
      omega)
  rw [h1] at h3
  cases h3
  exact ⟨_, by simp only [wnew, h1, Res.bind], h2, h4⟩

/-- Deleting a structure that the library does not hold any more. -/
theorem WInv.delete {w : World} {l l' : Lib} (hi : WInv w l) {f : Nat} (hf : f < w.files.length) (hu : 0 < usersOf l f)
    (hk : ∀ h ∈ l'.handles, h ∈ l.handles) (hs : ∀ g ∈ l'.stuck, g ∈ l.stuck)
    (hc : ∀ g, (usersOf l' g : Int) = usersOf l g - if g = f then 1 else 0)
    (hr : w.urefs - 1 = w.files.countP (·.alive) + l'.handles.countP (fun h => !h.isFile) + l'.ctxs.length + l'.lost +
      l'.stuck.length) :
    ∃ w', wdelete w f = .ok w' ∧ WInv w' l' := by
  obtain ⟨w', h1, h2⟩ := hi.dec (u := -1) hf hu hk hs hc (by rw [← hr]; rfl)
  exact ⟨_, by simp only [wdelete, h1, Res.bind]; rfl, h2⟩

theorem usersOf_erase {l : Lib} {i : Nat} {h : Hd} (hh : l.handles[i]? = some h) (g : Nat) :
    (usersOf { l with handles := l.handles.eraseIdx i } g : Int) = usersOf l g - if g = h.ptr.fp then 1 else 0 := by
  have := countP_eraseIdx (Hd.on g) hh
  simp only [Hd.on, beq_iff_eq] at this
  simp only [usersOf, Int.natCast_add]
  rw [this]
  by_cases e : g = h.ptr.fp
  · rw [if_pos e, if_pos e.symm]; omega
  · rw [if_neg e, if_neg (fun h => e h.symm)]; omega

theorem WInv.step {w : World} {l : Lib} (hi : WInv w l) {c : WCall} (ha : c.allowed l) (hw : ∀ k uo x, c ≠ .wrap k uo true x)
    (hun : ∀ i h, c = .unwrap i → l.handles[i]? = some h → h.isFile = false) :
    ∃ w' l', wstep w l c = .ok (w', l') ∧ WInv w' l' := by
  cases c with
  | openFile lb =>
    refine ⟨_, _, rfl, ?_⟩
    have hno : usersOf l w.files.length = 0 := by
      unfold usersOf
      rw [Nat.add_eq_zero_iff, List.countP_eq_zero, List.count_eq_zero]
      refine ⟨?_, fun h => absurd (hi.stk _ h) (by omega)⟩
      intro h hh
      have := (hi.kind h hh).1
      simp only [Hd.on, beq_iff_eq]
      omega
    have hus : ∀ g, usersOf (l.add true (some (wopen w lb).1)) g = usersOf l g + if g = w.files.length then 1 else 0 := by
      intro g
      simp only [usersOf, Lib.add, wopen, List.countP_append, List.countP_singleton, Hd.on, Ptr.fp, beq_iff_eq]
      split <;> split <;> omega
    constructor
    · intro h hh
      simp only [wopen, List.length_append, List.length_cons, List.length_nil]
      rcases List.mem_append.mp hh with hh | hh
      · exact ⟨by have := (hi.kind h hh).1; omega, (hi.kind h hh).2⟩
      · simp only [List.mem_singleton] at hh
        subst hh
        exact ⟨by simp [wopen, Ptr.fp], by simp [wopen, Ptr.fp]⟩
    · intro f hf
      simp only [wopen, List.length_append, List.length_cons, List.length_nil]
      have := hi.stk f hf
      omega
    · intro f F hF
      rw [hus]
      simp only [wopen] at hF
      by_cases hlt : f < w.files.length
      · rw [List.getElem?_append_left hlt] at hF
        rw [if_neg (by omega)]
        exact hi.file f F hF
      · rw [List.getElem?_append_right (by omega)] at hF
        have : f = w.files.length := by
          rcases Nat.lt_or_ge (f - w.files.length) 1 with h | h
          · omega
          · rw [List.getElem?_eq_none (by simpa using h)] at hF
            simp at hF
        subst this
        simp only [Nat.sub_self, List.getElem?_cons_zero, Option.some.injEq] at hF
        subst hF
        rw [hno]
        simp
    · have := hi.refs
      simp only [wopen, Lib.add, List.countP_append, List.countP_singleton]
      simp
      omega
  | reopen i =>
    obtain ⟨h, hh, hf⟩ := ha
    have hm := hi.kind h (List.mem_of_getElem? hh)
    have hp := hm.2.mp hf
    obtain ⟨w', h1, h2⟩ := hi.inc0 (l' := l.add true (some h.ptr)) hm.1 (usersOf_handle hh)
      (fun g hg => by
        rcases List.mem_append.mp hg with hg | hg
        · exact .inl hg
        · simp only [List.mem_singleton] at hg
          subst hg
          exact .inr ⟨rfl, by simpa using hp⟩)
      (fun g hg => .inl hg) (fun g => by
        simp only [usersOf, Lib.add, List.countP_append, List.countP_singleton, Hd.on, beq_iff_eq]
        split <;> split <;> omega) (by
        have := hi.refs
        simp only [Lib.add, List.countP_append, List.countP_singleton]
        simp
        omega)
    refine ⟨w', _, ?_, h2⟩
    simp only [wstep, hh]
    rw [hp]
    simp only [wreopen, h1, Res.bind]
  | openObj i dset r =>
    obtain ⟨h, hh⟩ : ∃ h, l.handles[i]? = some h := ⟨_, List.getElem?_eq_getElem ha⟩
    have hm := hi.kind h (List.mem_of_getElem? hh)
    have hu := usersOf_handle hh
    obtain ⟨F, hF, hal, _, _, huse⟩ := hi.use hm.1 hu
    obtain ⟨w1, h1, h2, h3⟩ := hi.new hm.1 hu r
    have hlen : h.ptr.fp < w1.files.length := h2.stk _ (by simp)
    have hv := h3.vol (f := h.ptr.fp) hlen (by
      have := usersOf_handle (l := { l with handles := l.handles ++ [⟨false, .obj h.ptr.fp r⟩] }) (i := l.handles.length)
        (h := ⟨false, .obj h.ptr.fp r⟩) (by simp)
      simpa [Ptr.fp] using this)
    simp only [wstep, hh, wopenObj, huse, h1, Res.bind, hv]
    cases r with
    | some u => exact ⟨_, _, rfl, by simpa [Lib.add] using h3⟩
    | none =>
      simp only [Option.isSome_none, Bool.false_eq_true, if_false]
      have hpl : isPlain w h.ptr.fp = !F.logBased := by simp [isPlain, hF]
      by_cases hpd : (dset && !F.logBased) = true
      · rw [if_pos hpd]
        refine ⟨_, _, rfl, ?_⟩
        simp only [Bool.and_eq_true] at hpd
        rw [if_pos ⟨trivial, hpd.1, by rw [hpl]; exact hpd.2⟩]
        exact h2
      · rw [if_neg hpd]
        obtain ⟨w2, h4, h5⟩ := h2.delete (l' := l) hlen (by simp only [usersOf, List.count_cons_self]; omega) (fun _ h => h) (fun g hg => by simp [hg])
          (fun g => by
            simp only [usersOf, List.count_cons, beq_iff_eq]
            split <;> split <;> omega) (by
            have := h2.refs
            simp only [List.length_cons] at this
            omega)
        simp only [h4]
        refine ⟨_, _, rfl, ?_⟩
        rw [if_neg (by rw [hpl]; simpa using hpd)]
        exact h5
  | close i ok =>
    obtain ⟨h, hh⟩ : ∃ h, l.handles[i]? = some h := ⟨_, List.getElem?_eq_getElem ha⟩
    have hm := hi.kind h (List.mem_of_getElem? hh)
    have hu := usersOf_handle hh
    have hcn := countP_eraseIdx (fun h : Hd => !h.isFile) hh
    simp only [wstep, hh]
    by_cases hf : h.isFile = true
    · rw [if_pos hf]
      have hp := hm.2.mp hf
      obtain ⟨w', h1, h2⟩ := hi.dec0 (l' := { l with handles := l.handles.eraseIdx i }) hm.1 hu
        (fun g hg => List.mem_of_mem_eraseIdx hg) (fun _ h => h) (usersOf_erase hh) (by
          have := hi.refs
          rw [hf] at hcn
          simp at hcn
          simp only
          omega)
      refine ⟨w', _, ?_, h2⟩
      rw [hp]
      simp only [wcloseFile, h1, Res.bind]
    · rw [if_neg hf]
      obtain ⟨f, uo, hp⟩ : ∃ f uo, h.ptr = .obj f uo := by
        cases hq : h.ptr with
        | file f => exact absurd (hm.2.mpr (by rw [hq]; rfl)) hf
        | obj f uo => exact ⟨f, uo, rfl⟩
      have hfp : h.ptr.fp = f := by rw [hp]; rfl
      rw [hfp] at hm hu
      rw [hp]
      simp only [wcloseObj, hi.vol hm.1 hu, Res.bind]
      cases ok with
      | false => exact ⟨_, _, rfl, hi⟩
      | true =>
        obtain ⟨w', h1, h2⟩ := hi.delete (l' := { l with handles := l.handles.eraseIdx i }) hm.1 hu
          (fun g hg => List.mem_of_mem_eraseIdx hg) (fun _ h => h) (fun g => by rw [usersOf_erase hh, hfp]) (by
            have := hi.refs
            have hf' : h.isFile = false := by simpa using hf
            rw [hf'] at hcn
            simp at hcn
            simp only
            omega)
        simp only [if_true, h1]
        exact ⟨_, _, rfl, h2⟩
  | getCtx i ok =>
    obtain ⟨h, hh⟩ : ∃ h, l.handles[i]? = some h := ⟨_, List.getElem?_eq_getElem ha⟩
    have hm := hi.kind h (List.mem_of_getElem? hh)
    obtain ⟨F, hF, hal, _, _, huse⟩ := hi.use hm.1 (usersOf_handle hh)
    have hv : useVol { w with urefs := w.urefs + 1 } = .ok () := by
      have := hi.refs
      unfold useVol
      rw [if_pos (by simp only; omega)]
    simp only [wstep, hh, wgetCtx, huse, Res.bind, hv]
    refine ⟨_, _, rfl, ?_⟩
    have hrefs := hi.refs
    cases ok with
    | true => exact ⟨hi.kind, hi.stk, hi.file, by simp; omega⟩
    | false => exact ⟨hi.kind, hi.stk, hi.file, by simp; omega⟩
  | wrap c uo isFile r =>
    obtain ⟨f, hc, hany⟩ := ha
    have hif : isFile = false := by
      cases isFile with
      | true => exact absurd rfl (hw c uo r)
      | false => rfl
    subst hif
    obtain ⟨h, hmem, hon⟩ := List.any_eq_true.mp hany
    obtain ⟨i, hh⟩ := List.getElem?_of_mem hmem
    have hfp : h.ptr.fp = f := by simpa [Hd.on] using hon
    have hlt : f < w.files.length := hfp ▸ (hi.kind h hmem).1
    have hu : 0 < usersOf l f := hfp ▸ usersOf_handle hh
    obtain ⟨F, hF, hal, _, _, huse⟩ := hi.use hlt hu
    obtain ⟨w1, h1, _, h3⟩ := hi.new hlt hu r
    simp only [wstep, hc, wwrap, hi.vol hlt hu, Res.bind, huse, h1]
    cases F.logBased with
    | false => exact ⟨_, _, rfl, h3⟩
    | true =>
      cases r with
      | some u => exact ⟨_, _, rfl, h3⟩
      | none => exact ⟨_, _, rfl, hi⟩
  | unwrap i =>
    obtain ⟨h, hh⟩ : ∃ h, l.handles[i]? = some h := ⟨_, List.getElem?_eq_getElem ha⟩
    have hm := hi.kind h (List.mem_of_getElem? hh)
    have hu := usersOf_handle hh
    have hcn := countP_eraseIdx (fun h : Hd => !h.isFile) hh
    have hf := hun i h rfl hh
    obtain ⟨f, uo, hp⟩ : ∃ f uo, h.ptr = .obj f uo := by
      cases hq : h.ptr with
      | file f => rw [hm.2.mpr (by rw [hq]; rfl)] at hf; simp at hf
      | obj f uo => exact ⟨f, uo, rfl⟩
    have hfp : h.ptr.fp = f := by rw [hp]; rfl
    rw [hfp] at hm hu
    obtain ⟨F, hF, hal, _, _, huse⟩ := hi.use hm.1 hu
    obtain ⟨w', h1, h2⟩ := hi.delete (l' := { l with handles := l.handles.eraseIdx i }) hm.1 hu
      (fun g hg => List.mem_of_mem_eraseIdx hg) (fun _ h => h) (fun g => by rw [usersOf_erase hh, hfp]) (by
        have := hi.refs
        rw [hf] at hcn
        simp at hcn
        simp only
        omega)
    simp only [wstep, hh, hp, wunwrap, huse, hi.vol hm.1 hu, Res.bind, h1]
    exact ⟨_, _, rfl, h2⟩
  | freeCtx c ok =>
    have ha : c < l.ctxs.length := ha
    have hrefs := hi.refs
    have hv : useVol w = .ok () := by
      unfold useVol
      rw [if_pos (by omega)]
    have hl : (l.ctxs.eraseIdx c).length = l.ctxs.length - 1 := by rw [List.length_eraseIdx, if_pos ha]
    simp only [wstep, wfreeCtx, hv, Res.bind]
    cases ok with
    | true => exact ⟨_, _, rfl, hi.kind, hi.stk, hi.file, by simp [hl]; omega⟩
    | false => exact ⟨_, _, rfl, hi.kind, hi.stk, hi.file, by simp [hl]; omega⟩

theorem WInv.run : ∀ {cs : List WCall} {w : World} {l : Lib}, WInv w l → WOK w l cs → NoFileWrap w l cs →
    ∃ w' l', wrun w l cs = .ok (w', l') ∧ WInv w' l'
  | [], w, l, hi, _, _ => ⟨w, l, rfl, hi⟩
  | c :: r, w, l, hi, hok, hn => by
    obtain ⟨w1, l1, h1, hi1⟩ := hi.step hok.1 hn.1 hn.2.1
    obtain ⟨w2, l2, h2, hi2⟩ := WInv.run hi1 (hok.2 _ _ h1) (hn.2.2 _ _ h1)
    exact ⟨w2, l2, by simp only [wrun, h1, Res.bind]; exact h2, hi2⟩

/-! ### C72 -/

/-- The file has a handle, or a structure left behind. -/
def Lib.uses (l : Lib) (f : Nat) : Prop := (∃ h ∈ l.handles, h.ptr.fp = f) ∨ f ∈ l.stuck

theorem uses_iff (l : Lib) (f : Nat) : l.uses f ↔ 0 < usersOf l f := by
  unfold Lib.uses usersOf
  rw [Nat.add_pos_iff_pos_or_pos, List.countP_pos_iff, List.count_pos_iff]
  simp [Hd.on]

theorem uses_of_nothing {l : Lib} (hh : l.handles = []) (hs : l.stuck = []) (f : Nat) : ¬ l.uses f := by
  simp [Lib.uses, hh, hs]

/-- **C72, partial** (no file handle is got from a context, `C72_file_violated`): for all sequences of calls on any number of
files, log-based and ordinary, whatever calls of the connector below fail, no call touches a deleted file or a released
connector; a file has been closed exactly once if nothing uses it any more, and not at all otherwise; and the
connector below is referred to once by every open file, object and context, and once for every failed call that gets or
frees a context and every `H5Dopen` that failed in an ordinary file.  So if no call of these kinds failed, nothing refers to it
when the last handle and the last context are gone. -/
theorem C72_refs_partial {cs : List WCall} (h : WOK ⟨[], 0⟩ ⟨[], [], 0, []⟩ cs) (hn : NoFileWrap ⟨[], 0⟩ ⟨[], [], 0, []⟩ cs) :
    ∃ w l, wrun ⟨[], 0⟩ ⟨[], [], 0, []⟩ cs = .ok (w, l) ∧
      (∀ (f : Nat) (F : WFile), w.files[f]? = some F → (l.uses f → F.closes = 0) ∧ (¬ l.uses f → F.closes = 1)) ∧
      w.urefs = w.files.countP (fun F => F.closes == 0) + l.handles.countP (fun h => !h.isFile) + l.ctxs.length + l.lost +
        l.stuck.length ∧
      (l.handles = [] → l.ctxs = [] → l.stuck = [] → w.urefs = l.lost ∧ ∀ F ∈ w.files, F.closes = 1) := by
  obtain ⟨w, l, hr, hi⟩ := winv_empty.run h hn
  have hfile : ∀ (f : Nat) (F : WFile), w.files[f]? = some F → (l.uses f → F.closes = 0) ∧ (¬ l.uses f → F.closes = 1) := by
    intro f F hF
    obtain ⟨_, h2, h3⟩ := hi.file f F hF
    rw [uses_iff]
    refine ⟨fun hu => by rw [h3, if_pos (h2.mpr hu)], fun hu => by rw [h3, if_neg (fun e => hu (h2.mp e))]⟩
  have hcl : w.files.countP (·.alive) = w.files.countP (fun F => F.closes == 0) := by
    refine List.countP_congr ?_
    intro F hF
    obtain ⟨f, hf⟩ := List.getElem?_of_mem hF
    obtain ⟨_, _, h3⟩ := hi.file f F hf
    rw [h3]
    cases F.alive <;> simp
  refine ⟨w, l, hr, hfile, by rw [← hcl]; exact hi.refs, ?_⟩
  intro hh hc hs
  have hall : ∀ F ∈ w.files, F.closes = 1 := by
    intro F hF
    obtain ⟨f, hf⟩ := List.getElem?_of_mem hF
    exact (hfile f F hf).2 (uses_of_nothing hh hs f)
  refine ⟨?_, hall⟩
  have hz : w.files.countP (fun F => F.closes == 0) = 0 := by
    rw [List.countP_eq_zero]
    intro F hF
    simp [hall F hF]
  have := hi.refs
  rw [hcl, hz, hh, hc, hs] at this
  simpa using this

/-- The calls of the next example: an ordinary and a log-based file, an object of each, a context that outlives its file, an object
wrapped and unwrapped, a failed open of a group, a failed close. -/
def wsCalls : List WCall :=
  [.openFile false, .openFile true, .openObj 0 true (some 5), .openObj 1 false (some 6), .getCtx 3 true, .wrap 0 7 false (some 7),
    .unwrap 4, .close 1 true, .openObj 0 false none, .close 2 false, .close 2 true, .close 0 true, .freeCtx 0 true, .close 0 true]

theorem ws_run : wrun ⟨[], 0⟩ ⟨[], [], 0, []⟩ wsCalls =
    .ok (⟨[⟨false, 0, false, 1, none⟩, ⟨true, 0, false, 1, none⟩], 0⟩, ⟨[], [], 0, []⟩) := by decide

/-- Decidable forms of the conditions on a sequence of calls. -/
def wokB (w : World) (l : Lib) : List WCall → Bool
  | [] => true
  | c :: r => (match c with
      | .openFile _ => true
      | .reopen i => (l.handles[i]?).any (·.isFile)
      | .openObj i _ _ => decide (i < l.handles.length)
      | .close i _ => decide (i < l.handles.length)
      | .getCtx i _ => decide (i < l.handles.length)
      | .wrap c _ _ _ => (l.ctxs[c]?).any (fun f => l.handles.any (Hd.on f))
      | .unwrap i => decide (i < l.handles.length)
      | .freeCtx c _ => decide (c < l.ctxs.length)) &&
    (match wstep w l c with
      | .ok (w', l') => wokB w' l' r
      | _ => true)

theorem any_some {α : Type} {p : α → Bool} {o : Option α} (h : o.any p = true) : ∃ x, o = some x ∧ p x = true := by
  cases o with
  | none => simp at h
  | some x => exact ⟨x, rfl, by simpa using h⟩

theorem wok_of : ∀ {cs : List WCall} {w : World} {l : Lib}, wokB w l cs = true → WOK w l cs
  | [], _, _, _ => trivial
  | c :: r, w, l, h => by
    simp only [wokB, Bool.and_eq_true] at h
    refine ⟨?_, ?_⟩
    · have h1 := h.1
      cases c with
      | openFile _ => trivial
      | reopen i => exact any_some h1
      | wrap c _ _ _ => exact any_some h1
      | openObj i _ _ => simpa [WCall.allowed] using h1
      | close i _ => simpa [WCall.allowed] using h1
      | getCtx i _ => simpa [WCall.allowed] using h1
      | unwrap i => simpa [WCall.allowed] using h1
      | freeCtx c _ => simpa [WCall.allowed] using h1
    · intro w' l' e
      have h2 := h.2
      rw [e] at h2
      exact wok_of h2

/-- As a boolean. -/
def nfwB (w : World) (l : Lib) : List WCall → Bool
  | [] => true
  | c :: r => (match c with
      | .wrap _ _ b _ => !b
      | .unwrap i => !(l.handles[i]?).any (·.isFile)
      | _ => true) &&
    (match wstep w l c with
      | .ok (w', l') => nfwB w' l' r
      | _ => true)

theorem nfw_of : ∀ {cs : List WCall} {w : World} {l : Lib}, nfwB w l cs = true → NoFileWrap w l cs
  | [], _, _, _ => trivial
  | c :: r, w, l, h => by
    simp only [nfwB, Bool.and_eq_true] at h
    refine ⟨?_, ?_, ?_⟩
    · rintro k uo x rfl
      simp at h
    · rintro i hd rfl e
      have h1 := h.1
      simp only [e, Option.any_some] at h1
      simpa using h1
    · intro w' l' e
      have h2 := h.2
      rw [e] at h2
      exact nfw_of h2

example : WOK ⟨[], 0⟩ ⟨[], [], 0, []⟩ wsCalls ∧ NoFileWrap ⟨[], 0⟩ ⟨[], [], 0, []⟩ wsCalls :=
  ⟨wok_of (by decide), nfw_of (by decide)⟩

/-- **C72 is violated** in an ordinary file when a file handle is got from an object (`H5Iget_file_id` after `H5Fclose`): the
pointer is to an object structure, and closing or reopening the handle treats it as a file structure. -/
theorem C72_file_violated : WOK ⟨[], 0⟩ ⟨[], [], 0, []⟩
      [.openFile false, .openObj 0 false (some 5), .close 0 true, .getCtx 0 true, .wrap 0 6 true (some 6), .close 1 true] ∧
    wrun ⟨[], 0⟩ ⟨[], [], 0, []⟩
      [.openFile false, .openObj 0 false (some 5), .close 0 true, .getCtx 0 true, .wrap 0 6 true (some 6), .close 1 true] = .ub ∧
    wrun ⟨[], 0⟩ ⟨[], [], 0, []⟩
      [.openFile false, .openObj 0 false (some 5), .close 0 true, .getCtx 0 true, .wrap 0 6 true (some 6), .reopen 1] = .ub :=
  ⟨wok_of (by decide), by decide, by decide⟩

theorem wstep_stuck {w w' : World} {l l' : Lib} {c : WCall} (h : wstep w l c = .ok (w', l')) {g : Nat} (hg : g ∈ l.stuck) :
    g ∈ l'.stuck := by
  have hadd : ∀ (b : Bool) (p : Option Ptr), (l.add b p).stuck = l.stuck := by
    intro b p
    cases p <;> rfl
  have hb : ∀ {α : Type} {x : Res α} {k : α → Res (World × Lib)}, x.bind k = .ok (w', l') →
      (∀ a, k a = .ok (w', l') → g ∈ l'.stuck) → g ∈ l'.stuck := by
    intro α x k e hk
    cases x with
    | ok a => exact hk a e
    | err => simp [Res.bind] at e
    | ub => simp [Res.bind] at e
  have fin : ∀ {v : World} {m : Lib}, (Res.ok (v, m) : Res (World × Lib)) = .ok (w', l') → g ∈ m.stuck → g ∈ l'.stuck := by
    intro v m e hm
    cases e
    exact hm
  cases c with
  | openFile lb => exact fin h (by rw [hadd]; exact hg)
  | freeCtx c ok => exact hb h (fun a e => fin e hg)
  | reopen i =>
    simp only [wstep] at h
    split at h
    · simp at h
    · exact hb h (fun a e => fin e (by rw [hadd]; exact hg))
  | openObj i dset r =>
    simp only [wstep] at h
    split at h
    · simp at h
    · refine hb h (fun a e => fin e ?_)
      split
      · exact List.mem_cons_of_mem _ hg
      · rw [hadd]; exact hg
  | close i ok =>
    simp only [wstep] at h
    split at h
    · simp at h
    · split at h
      · exact hb h (fun a e => fin e hg)
      · refine hb h (fun a e => fin e ?_)
        split <;> exact hg
  | getCtx i ok =>
    simp only [wstep] at h
    split at h
    · simp at h
    · refine hb h (fun a e => fin e ?_)
      split <;> exact hg
  | wrap c uo isFile r =>
    simp only [wstep] at h
    split at h
    · simp at h
    · exact hb h (fun a e => fin e (by rw [hadd]; exact hg))
  | unwrap i =>
    simp only [wstep] at h
    split at h
    · simp at h
    · exact hb h (fun a e => fin e hg)

theorem wrun_stuck : ∀ {cs : List WCall} {w w' : World} {l l' : Lib}, wrun w l cs = .ok (w', l') → ∀ {g : Nat}, g ∈ l.stuck →
    g ∈ l'.stuck
  | [], _, _, _, _, h, _, hg => by cases h; exact hg
  | c :: r, w, w', l, l', h, g, hg => by
    simp only [wrun] at h
    cases hs : wstep w l c with
    | ok a =>
      rw [hs] at h
      exact wrun_stuck (cs := r) h (wstep_stuck hs hg)
    | err => rw [hs] at h; simp [Res.bind] at h
    | ub => rw [hs] at h; simp [Res.bind] at h

/-- **C72 is violated:** after one failed `H5Dopen` in an ordinary file, whatever the library does before and afterwards, the
file is never closed. -/
theorem C72_dset_violated {cs ds : List WCall} {i : Nat} {w : World} {l : Lib} {h : Hd}
    (hb : wrun ⟨[], 0⟩ ⟨[], [], 0, []⟩ cs = .ok (w, l)) (hi : l.handles[i]? = some h) (hp : isPlain w h.ptr.fp = true)
    (hok : WOK ⟨[], 0⟩ ⟨[], [], 0, []⟩ (cs ++ .openObj i true none :: ds))
    (hn : NoFileWrap ⟨[], 0⟩ ⟨[], [], 0, []⟩ (cs ++ .openObj i true none :: ds)) :
    ∃ w' l' F, wrun ⟨[], 0⟩ ⟨[], [], 0, []⟩ (cs ++ .openObj i true none :: ds) = .ok (w', l') ∧
      w'.files[h.ptr.fp]? = some F ∧ F.closes = 0 := by
  obtain ⟨w', l', hr, hinv⟩ := winv_empty.run hok hn
  have happ : ∀ {as bs : List WCall} {v : World} {m : Lib}, wrun v m (as ++ bs) = (wrun v m as).bind fun (v, m) => wrun v m bs := by
    intro as bs
    induction as with
    | nil => intro v m; rfl
    | cons a as ih =>
      intro v m
      simp only [List.cons_append, wrun]
      cases wstep v m a with
      | ok x => simp only [Res.bind]; exact ih
      | err => rfl
      | ub => rfl
  have hr2 := hr
  rw [happ, hb] at hr2
  simp only [Res.bind, wrun] at hr2
  cases hs : wstep w l (.openObj i true none) with
  | err => rw [hs] at hr2; simp at hr2
  | ub => rw [hs] at hr2; simp at hr2
  | ok a =>
    rw [hs] at hr2
    have hst : h.ptr.fp ∈ a.2.stuck := by
      simp only [wstep, hi, hp] at hs
      cases hx : wopenObj w h.ptr true none with
      | err => rw [hx] at hs; simp [Res.bind] at hs
      | ub => rw [hx] at hs; simp [Res.bind] at hs
      | ok x =>
        rw [hx] at hs
        simp only [Res.bind, and_self, if_true, Res.ok.injEq] at hs
        rw [← hs]
        exact List.mem_cons_self
    have hst' := wrun_stuck hr2 hst
    have hlt := hinv.stk _ hst'
    obtain ⟨F, hF⟩ : ∃ F, w'.files[h.ptr.fp]? = some F := ⟨_, List.getElem?_eq_getElem hlt⟩
    refine ⟨w', l', F, hr, hF, ?_⟩
    obtain ⟨_, h2, h3⟩ := hinv.file _ F hF
    rw [h3, if_pos (h2.mpr ((uses_iff _ _).mp (.inr hst')))]

/-- The file is closed at once after the failed `H5Dopen`. -/
example : ∃ w l, wrun ⟨[], 0⟩ ⟨[], [], 0, []⟩ [.openFile false] = .ok (w, l) ∧
    (∃ h, l.handles[0]? = some h ∧ isPlain w h.ptr.fp = true) ∧
    WOK ⟨[], 0⟩ ⟨[], [], 0, []⟩ [.openFile false, .openObj 0 true none, .close 0 true] ∧
    NoFileWrap ⟨[], 0⟩ ⟨[], [], 0, []⟩ [.openFile false, .openObj 0 true none, .close 0 true] ∧
    ∃ w' l', wrun ⟨[], 0⟩ ⟨[], [], 0, []⟩ [.openFile false, .openObj 0 true none, .close 0 true] = .ok (w', l') ∧ l'.handles = [] :=
  ⟨_, _, rfl, ⟨_, rfl, by decide⟩, wok_of (by decide), nfw_of (by decide), _, _, rfl, by decide⟩

/-- **C72 is violated:** if the connector below fails to give or to free a context, the connector below is never released,
although every handle is closed. -/
theorem C72_context_violated :
    wrun ⟨[], 0⟩ ⟨[], [], 0, []⟩ [.openFile true, .getCtx 0 false, .close 0 true] =
      .ok (⟨[⟨true, 0, false, 1, none⟩], 1⟩, ⟨[], [], 1, []⟩) ∧
    wrun ⟨[], 0⟩ ⟨[], [], 0, []⟩ [.openFile true, .getCtx 0 true, .close 0 true, .freeCtx 0 false] =
      .ok (⟨[⟨true, 0, false, 1, none⟩], 1⟩, ⟨[], [], 1, []⟩) := by decide

/-- **C72 is violated:** wrapping an object of an ordinary file succeeds although the connector below failed; the handle is one
of nothing. -/
theorem C72_null_violated {w : World} {f : Nat} {F : WFile} (hF : w.files[f]? = some F) (ha : F.alive = true)
    (hp : F.logBased = false) (hu : 0 < w.urefs) (uo : Nat) (isFile : Bool) :
    ∃ w', wwrap w f uo isFile none = .ok (some (.obj f none), w') := by
  have h1 : useFile w f = .ok F := by simp [useFile, hF, ha]
  simp only [wwrap, useVol, if_pos hu, Res.bind, h1, hp, wnew, wincRef]
  exact ⟨_, rfl⟩

/-- The same in a log-based file fails, as it should. -/
example : wwrap ⟨[⟨true, 1, true, 0, none⟩], 1⟩ 0 5 false none = .ok (none, ⟨[⟨true, 1, true, 0, none⟩], 1⟩) := by decide

/-- C72 for objects that the library wraps for the time of a call: unwrapping gives back the object that was wrapped and leaves the
files as they were but for `wrapped_obj`, for every type in log-based files, and for all but a failed wrap in ordinary ones.
`r` is the result of the connector below, which wraps and unwraps without a change, as the native one does. -/
theorem C72_unwrap {w : World} {f : Nat} {F : WFile} (hF : w.files[f]? = some F) (ha : F.alive = true) (hr : 0 < F.refcnt)
    (hu : 0 < w.urefs) (uo : Nat) (isFile : Bool) :
    ∃ p w1 w2, wwrap w f uo isFile (some uo) = .ok (some p, w1) ∧ wunwrap w1 p = .ok (some uo, w2) ∧ w2.urefs = w.urefs ∧
      w2.files = w.files.set f { F with wrapped := if isFile && F.logBased then some uo else F.wrapped } := by
  have h1 : useFile w f = .ok F := by simp [useFile, hF, ha]
  have hlt : f < w.files.length := (List.getElem?_eq_some_iff.mp hF).1
  have hobj : ∀ {g : Nat} (v : World), v = { files := w.files.set f { F with refcnt := F.refcnt + 1 }, urefs := w.urefs + 1 } →
      g = f → ∃ w2, wunwrap v (.obj g (some uo)) = .ok (some uo, w2) ∧ w2.urefs = w.urefs ∧ w2.files = w.files.set f F := by
    rintro g v rfl rfl
    have h2 : useFile { files := w.files.set g { F with refcnt := F.refcnt + 1 }, urefs := w.urefs + 1 } g =
        .ok { F with refcnt := F.refcnt + 1 } := by simp [useFile, hlt, ha]
    have hv : useVol { files := w.files.set g { F with refcnt := F.refcnt + 1 }, urefs := w.urefs + 1 } = .ok () := by
      unfold useVol
      rw [if_pos (by simp only; omega)]
    simp only [wunwrap, h2, hv, Res.bind, wdelete, wdecRef]
    rw [if_neg (by omega)]
    refine ⟨_, rfl, by simp only; omega, ?_⟩
    simp only [List.set_set]
    congr 1
    simp
  cases hl : F.logBased with
  | false =>
    obtain ⟨w2, h3, h4, h5⟩ := hobj (g := f) _ rfl rfl
    refine ⟨.obj f (some uo), _, w2, ?_, h3, h4, ?_⟩
    · simp only [wwrap, useVol, if_pos hu, Res.bind, h1, hl, wnew, wincRef]
      rfl
    · rw [h5]; congr 1; cases F; simp at hl; simp [hl]
  | true =>
    cases isFile with
    | false =>
      obtain ⟨w2, h3, h4, h5⟩ := hobj (g := f) _ rfl rfl
      refine ⟨.obj f (some uo), _, w2, ?_, h3, h4, ?_⟩
      · simp only [wwrap, useVol, if_pos hu, Res.bind, h1, hl, wnew, wincRef]
        rfl
      · rw [h5]; congr 1; cases F; simp at hl; simp [hl]
    | true =>
      refine ⟨.file f, { w with files := w.files.set f { F with wrapped := some uo } },
        { w with files := w.files.set f { F with wrapped := some uo } }, ?_, ?_, rfl, ?_⟩
      · simp only [wwrap, useVol, if_pos hu, Res.bind, h1, hl]
        rfl
      · simp [wunwrap, useFile, hlt, ha, Res.bind]
      · simp [hl]

/-- A log-based file with another handle; the file is wrapped. -/
example : ∃ p w1, wwrap ⟨[⟨true, 2, true, 0, none⟩], 3⟩ 0 9 true (some 9) = .ok (some p, w1) ∧
    wunwrap w1 p = .ok (some 9, ⟨[⟨true, 2, true, 0, some 9⟩], 3⟩) := ⟨.file 0, _, rfl, rfl⟩

/-- **C72 is violated:** unwrapping a file that was never wrapped reads a pointer that was never set. -/
theorem C72_unset_violated (lb : Bool) : wunwrap (wopen ⟨[], 0⟩ lb).2 (wopen ⟨[], 0⟩ lb).1 = .ub := by
  cases lb <;> rfl

/-- C72 for contexts: a context got from an object or a file is one of its file, and what is wrapped with it belongs to this file and is the
object that was to be wrapped. -/
theorem C72_context {w : World} {p : Ptr} {F : WFile} (hF : w.files[p.fp]? = some F) (ha : F.alive = true) (hu : 0 < w.urefs)
    (uo : Nat) (isFile : Bool) :
    ∃ f w1 q w2, wgetCtx w p true = .ok (some f, w1) ∧ wwrap w1 f uo isFile (some uo) = .ok (some q, w2) ∧ q.fp = p.fp ∧
      ((F.logBased && isFile) = true → q = .file p.fp) ∧ ((F.logBased && isFile) = false → q = .obj p.fp (some uo)) := by
  have h1 : ∀ n, useFile { w with urefs := n } p.fp = .ok F := by intro n; simp [useFile, hF, ha]
  have hv : ∀ n, 0 < n → useVol { w with urefs := n } = .ok () := by intro n hn; simp [useVol, hn]
  have hc : wgetCtx w p true = .ok (some p.fp, { w with urefs := w.urefs + 1 }) := by
    unfold wgetCtx
    rw [show useFile w p.fp = .ok F from h1 w.urefs]
    simp only [Res.bind]
    rw [hv _ (by omega)]
    rfl
  refine ⟨p.fp, { w with urefs := w.urefs + 1 }, ?_⟩
  unfold wwrap
  rw [hv _ (by omega)]
  simp only [Res.bind, h1, wnew, wincRef, Option.isSome_some, if_true]
  cases hl : F.logBased <;> cases isFile <;> exact ⟨_, _, hc, rfl, rfl, by simp, by simp⟩

example : ∃ w, (wopen (wopen ⟨[], 0⟩ true).2 false).2 = w ∧ w.files[(Ptr.file 1).fp]? = some ⟨false, 1, true, 0, none⟩ ∧ 0 < w.urefs :=
  ⟨_, rfl, rfl, by decide⟩

/-- **C72 is violated by contexts.** A context does not keep its file: in any state, one that is used after its file has been closed
reads a deleted structure, and one that is freed after the connector below has been released uses it. (The library frees contexts at the
end of the call.) The last part is a program that does so. -/
theorem C72_dangling_violated : (∀ (w : World) (f uo : Nat) (isFile : Bool) (p : Option Nat), (∀ F, w.files[f]? = some F → F.alive = false) →
      wwrap w f uo isFile p = .ub) ∧
    (∀ w : World, w.urefs = 0 → wfreeCtx w true = .ub) ∧
    wrun ⟨[], 0⟩ ⟨[], [], 0, []⟩ [.openFile true, .getCtx 0 true, .close 0 true, .wrap 0 5 false (some 5)] = .ub := by
  refine ⟨?_, ?_, by decide⟩
  · intro w f uo isFile p h
    unfold wwrap useVol
    by_cases hu : 0 < w.urefs
    · rw [if_pos hu]
      simp only [Res.bind]
      have : useFile w f = .ub := by
        unfold useFile
        cases hF : w.files[f]? with
        | none => rfl
        | some F => simp [h F hF]
      rw [this]
    · rw [if_neg hu]
      rfl
  · intro w h
    unfold wfreeCtx useVol
    rw [h]
    rfl

/-- The hypotheses: a file that has been closed. -/
example : ∃ w : World, ∀ F, w.files[0]? = some F → F.alive = false := ⟨⟨[⟨true, 0, false, 1, none⟩], 1⟩, by simp⟩

end Verif.Props
