import Mathlib.Data.List.Pairwise
import Verif.Model.Handles

/-
C41 (registry of open files) and C42 (reference count).
-/

namespace Verif.Props

/-! ### C41 -/

/-- Histories of opens and closes.  `stat` tells the truth: the registration sees the file that was opened, the search sees
it too unless the call creates it.  New objects have fresh addresses, a created file is none of the open ones.  Every file
that occurs satisfies `dev`. -/
inductive RegRun (dev : FileId → Prop) : Registry → Registry → Prop
  | nil (r : Registry) : RegRun dev r r
  | opened {r q r' : Registry} (file : FileId) (created : Bool) (addr : Nat) (hd : dev file)
      (hc : created = true → ∀ o ∈ r.objs, o.file ≠ file) (ha : ∀ o ∈ r.objs, o.addr ≠ addr)
      (h : regOpen r (if created then none else some file) (some file) addr file = some q) (t : RegRun dev q r') :
      RegRun dev r r'
  | refused {r r' : Registry} (file : FileId) (addr : Nat) (hd : dev file)
      (h : regOpen r (some file) (some file) addr file = none) (t : RegRun dev r r') : RegRun dev r r'
  | closed {r r' : Registry} (o : FileObj) (ho : o ∈ r.objs) (t : RegRun dev (regRemove r o) r') : RegRun dev r r'

/-- The map contains exactly the open files. -/
structure RegInv (dev : FileId → Prop) (r : Registry) : Prop where
  devs : ∀ o ∈ r.objs, dev o.file ∧ o.ino = some o.file.ino
  distinct : r.objs.Pairwise (fun a b => a.file ≠ b.file ∧ a.addr ≠ b.addr)
  found : ∀ o ∈ r.objs, regFind r o.file.ino = some o.addr
  only : ∀ e ∈ r.files, ∃ o ∈ r.objs, o.file.ino = e.1

theorem regFind_none {r : Registry} {i : Nat} (h : ∀ e ∈ r.files, e.1 ≠ i) : regFind r i = none := by
  unfold regFind
  rw [Option.map_eq_none_iff, List.find?_eq_none]
  intro e he
  simpa using h e he

theorem find_filter_ne {l : List (Nat × Nat)} {i j : Nat} (h : j ≠ i) :
    (l.filter (fun e => e.1 != i)).find? (fun e => e.1 == j) = l.find? (fun e => e.1 == j) := by
  induction l with
  | nil => rfl
  | cons e l ih =>
    by_cases he : e.1 = i
    · rw [List.filter_cons_of_neg (by simp [he]), List.find?_cons_of_neg (by simp [he, Ne.symm h]), ih]
    · rw [List.filter_cons_of_pos (by simpa using he), List.find?_cons, List.find?_cons, ih]

theorem regInv_empty (dev : FileId → Prop) : RegInv dev ⟨[], []⟩ := ⟨by simp, by simp, by simp, by simp⟩

theorem regInv_open {dev : FileId → Prop} (hinj : ∀ a b, dev a → dev b → a.ino = b.ino → a = b) {r q : Registry}
    (hi : RegInv dev r) {file : FileId} {b : Option FileId} {addr : Nat} (hd : dev file) (hn : ∀ o ∈ r.objs, o.file ≠ file)
    (ha : ∀ o ∈ r.objs, o.addr ≠ addr) (h : regOpen r b (some file) addr file = some q) : RegInv dev q := by
  have hq : q = regRegister r (some file) addr file := by
    unfold regOpen at h
    cases hs : regSearch r b with
    | none => rw [hs] at h; simpa using h.symm
    | some x => rw [hs] at h; simp at h
  subst hq
  simp only [regRegister, Option.elim_some]
  have hne : ∀ o ∈ r.objs, o.file.ino ≠ file.ino := fun o ho e => hn o ho (hinj _ _ (hi.devs o ho).1 hd e)
  refine ⟨?_, ?_, ?_, ?_⟩
  · intro o ho
    rcases List.mem_cons.mp ho with rfl | ho
    · exact ⟨hd, rfl⟩
    · exact hi.devs o ho
  · rw [List.pairwise_cons]
    exact ⟨fun o ho => ⟨(hn o ho).symm, (ha o ho).symm⟩, hi.distinct⟩
  · intro o ho
    rcases List.mem_cons.mp ho with rfl | ho
    · simp [regFind]
    · have := hi.found o ho
      unfold regFind at this ⊢
      rw [List.find?_cons_of_neg (by simpa using (hne o ho).symm), find_filter_ne (hne o ho)]
      exact this
  · intro e he
    rcases List.mem_cons.mp he with rfl | he
    · exact ⟨_, List.mem_cons_self, rfl⟩
    · obtain ⟨o, ho, h⟩ := hi.only e (List.mem_filter.mp he).1
      exact ⟨o, List.mem_cons_of_mem _ ho, h⟩

theorem regInv_close {dev : FileId → Prop} (hinj : ∀ a b, dev a → dev b → a.ino = b.ino → a = b) {r : Registry}
    (hi : RegInv dev r) {o : FileObj} (ho : o ∈ r.objs) :
    RegInv dev (regRemove r o) ∧ ∀ c ∈ (regRemove r o).objs, c.file ≠ o.file := by
  have hino := (hi.devs o ho).2
  have hnd : r.objs.Nodup := hi.distinct.imp (fun h e => h.1 (by rw [e]))
  have hoth : ∀ c ∈ r.objs.erase o, c.file ≠ o.file := by
    intro c hc
    have hcm := List.mem_of_mem_erase hc
    have hco : c ≠ o := fun e => by
      subst e
      exact (List.Nodup.not_mem_erase hnd) hc
    have hsym : ∀ x y : FileObj, (x.file ≠ y.file ∧ x.addr ≠ y.addr) → (y.file ≠ x.file ∧ y.addr ≠ x.addr) :=
      fun x y h => ⟨h.1.symm, h.2.symm⟩
    have : Std.Symm (fun a b : FileObj => a.file ≠ b.file ∧ a.addr ≠ b.addr) := ⟨hsym⟩
    exact (hi.distinct.forall hcm ho hco).1
  have hne : ∀ c ∈ r.objs.erase o, c.file.ino ≠ o.file.ino := fun c hc e =>
    hoth c hc (hinj _ _ (hi.devs c (List.mem_of_mem_erase hc)).1 (hi.devs o ho).1 e)
  refine ⟨⟨?_, ?_, ?_, ?_⟩, hoth⟩
  · exact fun c hc => hi.devs c (List.mem_of_mem_erase hc)
  · exact hi.distinct.sublist List.erase_sublist
  · intro c hc
    have := hi.found c (List.mem_of_mem_erase hc)
    unfold regFind at this ⊢
    simp only [regRemove, hino, Option.elim_some]
    rw [find_filter_ne (hne c hc)]
    exact this
  · intro e he
    simp only [regRemove, hino, Option.elim_some, List.mem_filter, bne_iff_ne, ne_eq] at he ⊢
    obtain ⟨c, hc, h⟩ := hi.only e he.1
    refine ⟨c, ?_, h⟩
    rw [List.mem_erase_of_ne]
    · exact hc
    · intro e'
      subst e'
      exact he.2 h.symm

theorem regRun_inv {dev : FileId → Prop} (hinj : ∀ a b, dev a → dev b → a.ino = b.ino → a = b) {r r' : Registry}
    (h : RegRun dev r r') (hi : RegInv dev r) : RegInv dev r' := by
  induction h with
  | nil => exact hi
  | opened file created addr hd hc ha h t ih =>
    rename_i r0 q r1
    refine ih (regInv_open hinj hi hd ?_ ha h)
    intro o ho
    cases created with
    | true => exact hc rfl o ho
    | false =>
      intro e
      have := hi.found o ho
      rw [e] at this
      simp [regOpen, regSearch, this] at h
  | refused _ _ _ _ _ ih => exact ih hi
  | closed o ho t ih => exact ih (regInv_close hinj hi ho).1

/-- C41: for every history of opens, creations and closes of any files whose inode numbers identify them (one file system):
opening finds the object exactly if the file is open, two open objects are on different files, and closing forgets the
file. -/
theorem C41_registry_partial {dev : FileId → Prop} (hinj : ∀ a b, dev a → dev b → a.ino = b.ino → a = b) {r : Registry}
    (h : RegRun dev ⟨[], []⟩ r) :
    (∀ f a, dev f → (regSearch r (some f) = some a ↔ ∃ o ∈ r.objs, o.file = f ∧ o.addr = a)) ∧
    (∀ f, dev f → (regSearch r (some f) = none ↔ ∀ o ∈ r.objs, o.file ≠ f)) ∧
    r.objs.Pairwise (fun a b => a.file ≠ b.file ∧ a.addr ≠ b.addr) ∧
    (∀ o ∈ r.objs, regSearch (regRemove r o) (some o.file) = none ∧
      ∀ c ∈ r.objs, c ≠ o → regSearch (regRemove r o) (some c.file) = some c.addr) := by
  have hi := regRun_inv hinj h (regInv_empty dev)
  have none_of : ∀ (r : Registry) (_ : RegInv dev r) (f : FileId), dev f → (∀ o ∈ r.objs, o.file ≠ f) →
      regSearch r (some f) = none := by
    intro r hi f hf hno
    refine regFind_none ?_
    intro e he heq
    obtain ⟨o, ho, h⟩ := hi.only e he
    exact hno o ho (hinj _ _ (hi.devs o ho).1 hf (h.trans heq))
  refine ⟨?_, ?_, hi.distinct, ?_⟩
  · intro f a hf
    constructor
    · intro hs
      by_cases hex : ∃ o ∈ r.objs, o.file = f
      · obtain ⟨o, ho, e⟩ := hex
        have := hi.found o ho
        rw [e] at this
        have hs' : regFind r f.ino = some a := hs
        rw [this] at hs'
        exact ⟨o, ho, e, by simpa using hs'⟩
      · have := none_of r hi f hf (fun o ho e => hex ⟨o, ho, e⟩)
        rw [this] at hs
        simp at hs
    · rintro ⟨o, ho, rfl, rfl⟩
      exact hi.found o ho
  · intro f hf
    constructor
    · intro hs o ho e
      have := hi.found o ho
      rw [e] at this
      have hs' : regFind r f.ino = none := hs
      rw [this] at hs'
      simp at hs'
    · exact none_of r hi f hf
  · intro o ho
    obtain ⟨hi', hno⟩ := regInv_close hinj hi ho
    refine ⟨none_of _ hi' _ (hi.devs o ho).1 hno, ?_⟩
    intro c hc hne
    have : c ∈ (regRemove r o).objs := (List.mem_erase_of_ne hne).mpr hc
    exact hi'.found c this

/-- Two files on different file systems with the same inode number. -/
def haFile : FileId := ⟨1, 7⟩
def hbFile : FileId := ⟨2, 7⟩

/-- C41 is violated for files of different file systems: with one open, opening the other is refused; creating the other
replaces the entry, closing it removes the entry, and then the first file can be opened twice at the same time. -/
theorem C41_registry_violated :
    (∃ r, RegRun (fun f => f = haFile ∨ f = hbFile) ⟨[], []⟩ r ∧ (∀ o ∈ r.objs, o.file ≠ hbFile) ∧
      regOpen r (some hbFile) (some hbFile) 200 hbFile = none) ∧
    (∃ r, RegRun (fun f => f = haFile ∨ f = hbFile) ⟨[], []⟩ r ∧
      ∃ a ∈ r.objs, ∃ b ∈ r.objs, a.addr ≠ b.addr ∧ a.file = b.file) := by
  constructor
  · exact ⟨_, .opened haFile false 100 (.inl rfl) (by simp) (by simp) rfl (.nil _), by decide, rfl⟩
  · refine ⟨_, .opened haFile false 100 (.inl rfl) (by simp) (by simp) rfl
      (.opened hbFile true 200 (.inr rfl) (by decide) (by decide) rfl
        (.closed ⟨200, some 7, hbFile⟩ (by decide)
          (.opened haFile false 300 (.inl rfl) (by simp) (by decide) rfl (.nil _)))), ?_⟩
    exact ⟨⟨100, some 7, haFile⟩, by decide, ⟨300, some 7, haFile⟩, by decide, by decide, rfl⟩

/-- Two files of one file system open at the same time, a refused open, a close. -/
example : ∃ r, RegRun (fun f => f.dev = 1) ⟨[], []⟩ r ∧ r.objs.length = 1 ∧
    (∀ a b : FileId, a.dev = 1 → b.dev = 1 → a.ino = b.ino → a = b) := by
  refine ⟨_, .opened ⟨1, 7⟩ true 100 rfl (by simp) (by simp) rfl
    (.opened ⟨1, 8⟩ false 200 rfl (by simp) (by decide) rfl
      (.refused ⟨1, 7⟩ 300 rfl rfl (.closed ⟨100, some 7, ⟨1, 7⟩⟩ (by decide) (.nil _)))), by decide, ?_⟩
  rintro ⟨d, i⟩ ⟨d', i'⟩ h1 h2 h3
  simp_all

/-! ### C42 -/

/-- Every operation is on a handle that the user holds at that moment. -/
def HandlesOK : Handles → List HandleOp → Prop
  | _, [] => True
  | h, o :: r => o.allowed h ∧ ∀ h', handleStep h o = .ok h' → HandlesOK h' r

/-- The count is the number of handles and the file is open exactly while there are handles. -/
structure HandleInv (h : Handles) : Prop where
  count : h.refcnt = h.fileHandles + h.objHandles
  life : h.alive = true ↔ 0 < h.fileHandles + h.objHandles
  once : h.closes = if h.alive then 0 else 1

theorem handle_step {h : Handles} (hi : HandleInv h) {o : HandleOp} (ho : o.allowed h) (hw : o ≠ .wrapFile) :
    ∃ h', handleStep h o = .ok h' ∧ HandleInv h' := by
  obtain ⟨hc, hl, h1⟩ := hi
  obtain ⟨rc, al, cl, fh, oh⟩ := h
  have hal : al = true := by
    refine hl.mpr ?_
    cases o <;> simp only [HandleOp.allowed] at ho ⊢ <;> omega
  subst hal
  simp only [if_true] at h1 hc
  subst h1
  have key : ∀ fh' oh' : Nat, (fh' + oh' : Int) = rc + 1 →
      HandleInv ⟨rc + 1, true, 0, fh', oh'⟩ := by
    intro fh' oh' e
    refine ⟨e.symm, ?_, rfl⟩
    simp only [true_iff]
    omega
  cases o with
  | openObj =>
    refine ⟨_, rfl, key fh (oh + 1) ?_⟩
    simp only [hc]; omega
  | reopen =>
    refine ⟨_, rfl, key (fh + 1) oh ?_⟩
    simp only [hc]; omega
  | wrapFile => exact absurd rfl hw
  | closeObj =>
    simp only [HandleOp.allowed] at ho
    simp only [handleStep, decRef, if_true]
    split <;> rename_i hz
    · refine ⟨_, rfl, ?_, ?_, rfl⟩
      · simp only; omega
      · simp only [Bool.false_eq_true, false_iff]; omega
    · refine ⟨_, rfl, ?_, ?_, rfl⟩
      · simp only; omega
      · simp only [true_iff]; omega
  | closeFile =>
    simp only [HandleOp.allowed] at ho
    simp only [handleStep, decRef, if_true]
    split <;> rename_i hz
    · refine ⟨_, rfl, ?_, ?_, rfl⟩
      · simp only; omega
      · simp only [Bool.false_eq_true, false_iff]; omega
    · refine ⟨_, rfl, ?_, ?_, rfl⟩
      · simp only; omega
      · simp only [true_iff]; omega

theorem handle_run : ∀ {ops : List HandleOp} {h : Handles}, HandleInv h → HandlesOK h ops → HandleOp.wrapFile ∉ ops →
    ∃ h', handleRun h ops = .ok h' ∧ HandleInv h'
  | [], h, hi, _, _ => ⟨h, rfl, hi⟩
  | o :: r, h, hi, hok, hw => by
    have hw' : o ≠ .wrapFile ∧ HandleOp.wrapFile ∉ r := by
      simp only [List.mem_cons, not_or] at hw
      exact ⟨fun e => hw.1 e.symm, hw.2⟩
    obtain ⟨h1, e1, hi1⟩ := handle_step hi hok.1 hw'.1
    obtain ⟨h2, e2, hi2⟩ := handle_run hi1 (hok.2 h1 e1) hw'.2
    exact ⟨h2, by simp only [handleRun, e1]; exact e2, hi2⟩

/-- C42: for every history of opens and closes of the file and its objects in any order (without getting a file handle from
an object), no call touches a deleted file object, and the file has been closed exactly once if no handle is left, and not
at all otherwise. -/
theorem C42_refcount_partial {ops : List HandleOp} (h : HandlesOK Handles.init ops) (hw : HandleOp.wrapFile ∉ ops) :
    ∃ s, handleRun Handles.init ops = .ok s ∧ (s.closes = if s.fileHandles + s.objHandles = 0 then 1 else 0) := by
  obtain ⟨s, e, hi⟩ := handle_run (h := Handles.init) ⟨rfl, by decide, rfl⟩ h hw
  refine ⟨s, e, ?_⟩
  rw [hi.once]
  by_cases hz : s.fileHandles + s.objHandles = 0
  · rw [if_pos hz, if_neg]
    rw [hi.life]; omega
  · rw [if_neg hz, if_pos]
    rw [hi.life]; omega

/-- C42 is violated when a file handle is obtained from an object: open the file, get a handle from it, close that handle.
The file is closed although the first handle is still open, and closing the first handle uses a deleted object. -/
theorem C42_refcount_violated :
    HandlesOK Handles.init [.wrapFile, .closeFile, .closeFile] ∧
    (∃ s, handleRun Handles.init [.wrapFile, .closeFile] = .ok s ∧ s.closes = 1 ∧ s.fileHandles = 1) ∧
    handleRun Handles.init [.wrapFile, .closeFile, .closeFile] = .ub := by
  refine ⟨?_, ⟨_, rfl, rfl, rfl⟩, rfl⟩
  refine ⟨by decide, ?_⟩
  rintro h' e
  cases e
  refine ⟨by decide, ?_⟩
  rintro h' e
  cases e
  exact ⟨by decide, fun _ e => by cases e⟩

/-- The file is closed while an object is open, and the object opens another one. -/
example : ∃ s, HandlesOK Handles.init [.openObj, .closeFile, .openObj, .closeObj, .closeObj] ∧
    handleRun Handles.init [.openObj, .closeFile, .openObj, .closeObj, .closeObj] = .ok s ∧ s.closes = 1 := by
  refine ⟨_, ?_, rfl, rfl⟩
  refine ⟨by decide, ?_⟩
  rintro h' e
  cases e
  refine ⟨by decide, ?_⟩
  rintro h' e
  cases e
  refine ⟨by decide, ?_⟩
  rintro h' e
  cases e
  refine ⟨by decide, ?_⟩
  rintro h' e
  cases e
  exact ⟨by decide, fun _ _ => trivial⟩

end Verif.Props
