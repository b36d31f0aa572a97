import Verif.Spec.Disk
import Verif.Props.Info

/-
C84: files that are created, deleted and looked for.
-/

namespace Verif.Props
open Verif.Spec (OwnName filesStep filesRun opName NotExclSub reaches shallow)

theorem createPath_inj {n : Name} {g g' : Nat} (h : createPath n g = createPath n g') : g = g' := by
  unfold createPath at h
  have h1 := List.append_cancel_left h
  injection h1 with _ h2
  rw [digits_eq, digits_eq] at h2
  rw [← readDigits_digits g, h2, readDigits_digits]

theorem put_other {d : Disk} {n m : Name} {f : Option DFile} (h : m ≠ n) : d.put n f m = d m := by
  unfold Disk.put
  rw [if_neg h]

theorem put_same (d : Disk) (n : Name) (f : Option DFile) : d.put n f n = f := by
  unfold Disk.put
  rw [if_pos rfl]

/-- Only paths of subfiles are changed; each process is told whether its subfile could be created; none disappears. -/
theorem makeSubs_ok (n : Name) (excl : Bool) : ∀ (gs : List Nat) (d : Disk), gs.Nodup →
    (makeSubs n excl gs d).1 = gs.map (fun g => !(excl && (d (createPath n g)).isSome)) ∧
    (∀ m, (∀ g ∈ gs, m ≠ createPath n g) → (makeSubs n excl gs d).2 m = d m) ∧
    ∀ g ∈ gs, (makeSubs n excl gs d).2 (createPath n g) ≠ none := by
  intro gs
  induction gs with
  | nil => intro d _; exact ⟨rfl, fun _ _ => rfl, by simp⟩
  | cons g gs ih =>
    intro d hnd
    obtain ⟨hg, hnd⟩ := List.nodup_cons.mp hnd
    obtain ⟨i1, i2, i3⟩ := ih (d.make (createPath n g) excl).2 hnd
    have hkeep : ∀ m, m ≠ createPath n g → (d.make (createPath n g) excl).2 m = d m := by
      intro m hm
      unfold Disk.make
      split
      · rfl
      · exact put_other hm
    have hthere : (d.make (createPath n g) excl).2 (createPath n g) ≠ none := by
      unfold Disk.make
      split
      · rename_i h
        rw [Bool.and_eq_true] at h
        intro e
        have h2 := h.2
        simp only at e
        rw [e] at h2
        cases h2
      · show d.put _ _ _ ≠ none
        rw [put_same]
        simp
    have hne : ∀ g' ∈ gs, createPath n g' ≠ createPath n g := by
      intro g' hg' e
      rw [createPath_inj e] at hg'
      exact hg hg'
    refine ⟨?_, ?_, ?_⟩
    · show (d.make (createPath n g) excl).1 :: (makeSubs n excl gs (d.make (createPath n g) excl).2).1 = _
      rw [i1, List.map_cons]
      congr 1
      · unfold Disk.make
        split <;> rename_i h
        · rw [h]; rfl
        · rw [Bool.not_eq_true] at h
          rw [h]; rfl
      · refine List.map_congr_left (fun g' hg' => ?_)
        rw [hkeep _ (hne g' hg')]
    · intro m hm
      exact (i2 m (fun g' hg' => hm g' (by simp [hg']))).trans (hkeep m (hm g (by simp)))
    · intro g' hg'
      rcases List.mem_cons.mp hg' with rfl | hg'
      · show (makeSubs n excl gs (d.make (createPath n g') excl).2).2 (createPath n g') ≠ none
        rw [i2 _ (fun g'' hg'' e => hne g'' hg'' e.symm)]
        exact hthere
      · exact i3 g' hg'

theorem create_fails {d : Disk} {n : Name} {excl : Bool} (h : (excl && (d n).isSome) = true) (groups : Option Nat) :
    fsStep d (.create n excl groups) = (.made (List.replicate (groups.getD 1) false), d) := by
  simp only [fsStep, Disk.make, h, if_true]
  rfl

theorem create_none {d : Disk} {n : Name} {excl : Bool} (h : ¬ (excl && (d n).isSome) = true) :
    fsStep d (.create n excl none) = (.made [true], d.put n (some .hdf)) := by
  simp only [fsStep, Disk.make, if_neg h, if_true]

theorem create_some {d : Disk} {n : Name} {excl : Bool} (h : ¬ (excl && (d n).isSome) = true) (k : Nat) :
    fsStep d (.create n excl (some k)) = (.made (makeSubs n excl (List.range k) (d.put n (some .hdf))).1,
      (makeSubs n excl (List.range k) (d.put n (some .hdf))).2) := by
  simp only [fsStep, Disk.make, if_neg h, if_true]

theorem delete_eq (d : Disk) (n : Name) :
    fsStep d (.delete n) = if d n = some .hdf then (.deleted true, d.put n none) else (.deleted false, d) := rfl

theorem accessible_eq (d : Disk) (n : Name) : fsStep d (.accessible n) = (.says ((d n).map (fun f => decide (f = .hdf))), d) := rfl

theorem files_create (f : Name → Option DFile) (n : Name) (excl : Bool) (groups : Option Nat) : filesStep f (.create n excl groups) =
    if excl = true ∧ f n ≠ none then (.made (List.replicate (groups.getD 1) false), f)
    else (.made (List.replicate (groups.getD 1) true), fun m => if m = n then some .hdf else f m) := rfl

theorem files_delete (f : Name → Option DFile) (n : Name) : filesStep f (.delete n) =
    if f n = some .hdf then (.deleted true, fun m => if m = n then none else f m) else (.deleted false, f) := rfl

theorem files_accessible (f : Name → Option DFile) (n : Name) : filesStep f (.accessible n) = (.says ((f n).map (fun x => x == .hdf)), f) := rfl

/-- **C84, partial: not H5Fcreate with H5F_ACC_EXCL and subfiling.** Any sequence of H5Fcreate, H5Fdelete and H5Fis_accessible calls, with files
that have subfiles among them: the calls say what they say about files of single pieces, and what is on disk under the names of the
application is what they should leave. -/
theorem C84_files_partial (ops : List FsOp) : ∀ (d : Disk) (f : Name → Option DFile), (∀ n, OwnName n → d n = f n) →
    (∀ op ∈ ops, OwnName (opName op) ∧ NotExclSub op) →
    (fsRun d ops).1 = (filesRun f ops).1 ∧ ∀ n, OwnName n → (fsRun d ops).2 n = (filesRun f ops).2 n := by
  induction ops with
  | nil => exact fun d f h _ => ⟨rfl, h⟩
  | cons op ops ih =>
    intro d f h hops
    obtain ⟨ho, hx⟩ := hops op (by simp)
    have key : (fsStep d op).1 = (filesStep f op).1 ∧ ∀ n, OwnName n → (fsStep d op).2 n = (filesStep f op).2 n := by
      cases op with
      | create n excl groups =>
        have hn := h n ho
        rw [files_create]
        by_cases hc : (excl && (d n).isSome) = true
        · rw [create_fails hc]
          rw [Bool.and_eq_true] at hc
          have : excl = true ∧ f n ≠ none := by
            refine ⟨hc.1, fun e => ?_⟩
            have h2 := hc.2
            rw [hn, e] at h2
            cases h2
          rw [if_pos this]
          exact ⟨rfl, h⟩
        · have : ¬ (excl = true ∧ f n ≠ none) := by
            rintro ⟨h1, h2⟩
            apply hc
            rw [Bool.and_eq_true]
            refine ⟨h1, ?_⟩
            rw [hn]
            cases e : f n with
            | none => exact absurd e h2
            | some _ => rfl
          rw [if_neg this]
          have hput : ∀ m, OwnName m → d.put n (some .hdf) m = if m = n then some .hdf else f m := by
            intro m hm
            unfold Disk.put
            rw [h m hm]
          cases groups with
          | none =>
            rw [create_none hc]
            exact ⟨rfl, hput⟩
          | some k =>
            have he : excl = false := by
              rcases hx with hx | hx
              · exact hx
              · cases hx
            subst he
            obtain ⟨s1, s2, _⟩ := makeSubs_ok n false (List.range k) (d.put n (some .hdf)) List.nodup_range
            rw [create_some hc]
            refine ⟨?_, ?_⟩
            · show FsAns.made _ = FsAns.made _
              rw [s1]
              simp
            · intro m hm
              show (makeSubs n false (List.range k) (d.put n (some .hdf))).2 m = _
              rw [s2 m (fun g _ => hm n g)]
              exact hput m hm
      | delete n =>
        have hn := h n ho
        rw [delete_eq, files_delete, hn]
        by_cases hc : f n = some .hdf
        · rw [if_pos hc, if_pos hc]
          refine ⟨rfl, fun m hm => ?_⟩
          show d.put n none m = _
          unfold Disk.put
          rw [h m hm]
        · rw [if_neg hc, if_neg hc]
          exact ⟨rfl, h⟩
      | accessible n =>
        have hn := h n ho
        rw [accessible_eq, files_accessible, hn]
        refine ⟨?_, h⟩
        cases f n with
        | none => rfl
        | some x => cases x <;> rfl
    obtain ⟨j1, j2⟩ := ih (fsStep d op).2 (filesStep f op).2 key.2 (fun op' h' => hops op' (by simp [h']))
    refine ⟨?_, j2⟩
    show (fsStep d op).1 :: (fsRun (fsStep d op).2 ops).1 = _
    rw [key.1, j1]
    rfl

/-- C84: what H5Fcreate with H5F_ACC_EXCL and subfiling does when the name is free: it fails in exactly the groups whose subfile is there, and
the main file exists afterwards in any case. -/
theorem C84_excl (d : Disk) (n : Name) (hn : OwnName n) (hd : d n = none) (k : Nat) :
    (fsStep d (.create n true (some k))).1 = .made ((List.range k).map (fun g => (d (createPath n g)).isNone)) ∧
    (fsStep d (.create n true (some k))).2 n = some .hdf := by
  obtain ⟨s1, s2, _⟩ := makeSubs_ok n true (List.range k) (d.put n (some .hdf)) List.nodup_range
  rw [create_some (by rw [hd]; simp)]
  refine ⟨?_, ?_⟩
  · show FsAns.made _ = FsAns.made _
    rw [s1]
    congr 1
    refine List.map_congr_left (fun g _ => ?_)
    rw [put_other (fun e => hn n g e.symm)]
    cases d (createPath n g) <;> rfl
  · show (makeSubs n true (List.range k) (d.put n (some .hdf))).2 n = _
    rw [s2 n (fun g _ => hn n g)]
    exact put_same _ _ _

/-- **C84 is violated: H5Fdelete.** It leaves all subfiles: a file with any number of subfiles is created and deleted.  H5Fdelete succeeds, the
subfiles are there, H5Fcreate with H5F_ACC_EXCL fails in all processes although there is no such file, and leaves a file that
H5Fis_accessible finds. -/
theorem C84_delete_violated (d : Disk) (n : Name) (hn : OwnName n) (hd : d n = none) (hs : ∀ g, d (createPath n g) = none) (k : Nat) :
    ∃ d1 d2 d3, fsStep d (.create n true (some k)) = (.made (List.replicate k true), d1) ∧
      fsStep d1 (.delete n) = (.deleted true, d2) ∧ d2 n = none ∧ (∀ g < k, d2 (createPath n g) ≠ none) ∧
      fsStep d2 (.create n true (some k)) = (.made (List.replicate k false), d3) ∧
      fsStep d3 (.accessible n) = (.says (some true), d3) := by
  obtain ⟨a1, a2⟩ := C84_excl d n hn hd k
  have hsub : ∀ g < k, (fsStep d (.create n true (some k))).2 (createPath n g) ≠ none := by
    intro g hg
    obtain ⟨_, _, s3⟩ := makeSubs_ok n true (List.range k) (d.put n (some .hdf)) List.nodup_range
    have := s3 g (List.mem_range.mpr hg)
    rw [create_some (by rw [hd]; simp)]
    exact this
  obtain ⟨d1, h1⟩ : ∃ d1, fsStep d (.create n true (some k)) = (.made (List.replicate k true), d1) := by
    refine ⟨(fsStep d (.create n true (some k))).2, ?_⟩
    rw [Prod.ext_iff]
    refine ⟨a1.trans ?_, rfl⟩
    simp [hs]
  rw [h1] at a2 hsub
  have h2 : fsStep d1 (.delete n) = (.deleted true, d1.put n none) := by
    rw [delete_eq, if_pos a2]
  have h3 : ∀ g < k, d1.put n none (createPath n g) ≠ none := by
    intro g hg
    rw [put_other (fun e => hn n g e.symm)]
    exact hsub g hg
  obtain ⟨b1, b2⟩ := C84_excl (d1.put n none) n hn (put_same _ _ _) k
  refine ⟨d1, d1.put n none, (fsStep (d1.put n none) (.create n true (some k))).2, h1, h2, put_same _ _ _, h3, ?_, ?_⟩
  · rw [Prod.ext_iff]
    refine ⟨b1.trans ?_, rfl⟩
    show FsAns.made _ = FsAns.made _
    congr 1
    apply List.ext_getElem
    · simp
    · intro i i1 i2
      have hi : i < k := by simpa using i1
      have := h3 i hi
      simp only [List.getElem_map, List.getElem_range, List.getElem_replicate]
      cases e : d1.put n none (createPath n i) with
      | none => exact absurd e this
      | some _ => rfl
  · generalize hd3 : (fsStep (d1.put n none) (.create n true (some k))).2 = d3
    rw [hd3] at b2
    rw [accessible_eq, b2]
    rfl

/-! ### Connectors -/

/-- C84: with the native connector below (also by default) H5Fdelete and H5Fis_accessible say what it says. -/
theorem C84_native {α : Type} (x : α) (i i' : FInfo) (h : i = .null ∨ i = .under .native i') (fuel : Nat) :
    fsPass x (fuel + 2) .log ⟨.log, i⟩ = some (.ok x) := by
  rcases h with rfl | rfl <;> rfl

theorem stack_never {α : Type} (x : α) (c : FConn) (hc : c ≠ .native) (i : FInfo) (fuel : Nat) (y : α) :
    fsPass x fuel .log ⟨.log, .under c i⟩ ≠ some (.ok y) := by
  cases c with
  | native => exact absurd rfl hc
  | log =>
    have : ∀ f, fsPass x f .log ⟨.log, .under .log i⟩ = none := by
      intro f
      induction f with
      | zero => rfl
      | succ f ih => exact ih
    rw [this]
    simp
  | pass c =>
    match fuel with
    | 0 => simp [fsPass]
    | 1 => simp [fsPass]
    | f + 2 =>
      have : fsPass x (f + 2) .log ⟨.log, .under (.pass c) i⟩ = some .ub := rfl
      rw [this]
      simp

/-- **C84 is violated: other connectors.** With any other connector below the calls never give an answer, although every connector on the way to
the native one knows the next: they are undefined or, with this connector twice, never return. -/
theorem C84_stack_violated {α : Type} (x : α) (c : FConn) (hc : c ≠ .native) (i : FInfo) (h : reaches c i = true) :
    reaches .log (.under c i) = true ∧ ∀ fuel y, fsPass x fuel .log ⟨.log, .under c i⟩ ≠ some (.ok y) := by
  exact ⟨h, fun fuel y => stack_never x c hc i fuel y⟩

/-- C84, exactly when: a stack of connectors, with this one anywhere in it, answers as the native connector does if and only if nothing but the
native connector is directly below this one; otherwise it never answers. -/
theorem C84_stack_partial {α : Type} (x : α) (c : FConn) (i : FInfo) :
    (shallow c i = true → ∃ fuel, ∀ more, fsPass x (fuel + more) c ⟨c, i⟩ = some (.ok x)) ∧
    (shallow c i = false → ∀ fuel y, fsPass x fuel c ⟨c, i⟩ ≠ some (.ok y)) := by
  induction i generalizing c with
  | null =>
    cases c with
    | native => exact ⟨fun _ => ⟨1, fun more => by rw [Nat.add_comm]; rfl⟩, fun h => by cases h⟩
    | log => exact ⟨fun _ => ⟨2, fun more => by rw [Nat.add_comm]; rfl⟩, fun h => by cases h⟩
    | pass c =>
      refine ⟨fun h => (by cases h), fun _ fuel y => ?_⟩
      match fuel with
      | 0 => simp [fsPass]
      | f + 1 => simp [fsPass]
  | under c' i ih =>
    cases c with
    | native => exact ⟨fun _ => ⟨1, fun more => by rw [Nat.add_comm]; rfl⟩, fun h => by cases h⟩
    | log =>
      refine ⟨fun h => ?_, fun h fuel y => ?_⟩
      · have : c' = .native := by simpa [shallow] using h
        subst this
        exact ⟨2, fun more => by rw [Nat.add_comm]; rfl⟩
      · have hc : c' ≠ .native := by simpa [shallow] using h
        exact stack_never x c' hc i fuel y
    | pass c =>
      refine ⟨fun h => ?_, fun h fuel y => ?_⟩
      · obtain ⟨f, hf⟩ := (ih c').1 h
        refine ⟨f + 1, fun more => ?_⟩
        have e : f + 1 + more = (f + more) + 1 := by omega
        rw [e]
        simp only [fsPass, if_true]
        exact hf more
      · match fuel with
        | 0 => simp [fsPass]
        | f + 1 =>
          simp only [fsPass, if_true]
          exact (ih c').2 h f y

/-- This connector over the native one, below another. -/
example : ∃ fuel, ∀ more, fsPass true (fuel + more) (.pass 512) ⟨.pass 512, .under .log (.under .native .null)⟩ = some (.ok true) :=
  (C84_stack_partial true (.pass 512) (.under .log (.under .native .null))).1 rfl

/-- Calls that succeed or not, one after the other. -/
def leaves (i : FInfo) (oks : List Bool) : FsLeft := oks.foldl (fun l ok => fsLeave i ok l) ⟨0, 0, 0⟩

/-- **C84 is violated: leaks.** Every call with a property list that names the connector below leaves a reference to it, and a copy of its
information if it has any; every call that fails leaves a property list. -/
theorem C84_leak_violated (i : FInfo) (oks : List Bool) : leaves i oks =
    ⟨if i = .null then 0 else oks.length, (match i with | .null => 0 | .under _ j => if j = .null then 0 else oks.length), oks.count false⟩ := by
  have key : ∀ (l : FsLeft), oks.foldl (fun l ok => fsLeave i ok l) l =
      ⟨l.refs + if i = .null then 0 else oks.length, l.infos + (match i with | .null => 0 | .under _ j => if j = .null then 0 else oks.length),
        l.lists + oks.count false⟩ := by
    induction oks with
    | nil => intro l; cases i with
      | null => simp
      | under c j => cases j <;> simp
    | cons b oks ih =>
      intro l
      rw [List.foldl_cons, ih]
      cases i with
      | null => cases b <;> (simp [fsLeave] <;> omega)
      | under c j => cases j <;> cases b <;> (simp [fsLeave]; omega)
  unfold leaves
  rw [key]
  simp

/-! ### Cases that meet the hypotheses -/

theorem ownName_short {n : Name} (h : '/' ∉ n) : OwnName n := by
  intro m g e
  apply h
  rw [e]
  unfold createPath
  simp

/-- A file without subfiles, and one with three, created, deleted and created again. -/
example (d : Disk) (h1 : d ['a'] = none) (h2 : d ['b'] = none) :
    (fsRun d [.create ['a'] true none, .create ['b'] false (some 3), .delete ['b'], .accessible ['b'],
      .create ['a'] true none, .create ['b'] false (some 2), .accessible ['b']]).1 =
    [.made [true], .made [true, true, true], .deleted true, .says none, .made [false], .made [true, true], .says (some true)] := by
  obtain ⟨h, _⟩ := C84_files_partial [.create ['a'] true none, .create ['b'] false (some 3), .delete ['b'],
    .accessible ['b'], .create ['a'] true none, .create ['b'] false (some 2), .accessible ['b']] d d
    (fun _ _ => rfl) (by
      intro op hop
      have ha : OwnName ['a'] := ownName_short (by decide)
      have hb : OwnName ['b'] := ownName_short (by decide)
      simp only [List.mem_cons, List.not_mem_nil, or_false] at hop
      rcases hop with rfl | rfl | rfl | rfl | rfl | rfl | rfl
      · exact ⟨ha, .inr rfl⟩
      · exact ⟨hb, .inl rfl⟩
      · exact ⟨hb, trivial⟩
      · exact ⟨hb, trivial⟩
      · exact ⟨ha, .inr rfl⟩
      · exact ⟨hb, .inl rfl⟩
      · exact ⟨hb, trivial⟩)
  rw [h]
  simp [filesRun, filesStep, h1, h2, List.replicate]

/-- No file on disk: the case of `C84_delete_violated` with two subfiles. -/
example : ∃ d1 d2 d3 : Disk, fsStep (fun _ => none) (.create ['a'] true (some 2)) = (.made [true, true], d1) ∧
    fsStep d1 (.delete ['a']) = (.deleted true, d2) ∧
    fsStep d2 (.create ['a'] true (some 2)) = (.made [false, false], d3) := by
  obtain ⟨d1, d2, d3, h1, h2, _, _, h3, _⟩ := C84_delete_violated (fun _ => none) ['a'] (ownName_short (by decide)) rfl (fun _ => rfl) 2
  exact ⟨d1, d2, d3, h1, h2, h3⟩

/-- Another connector below, over the native one. -/
example (fuel : Nat) (y : Bool) : fsPass true fuel .log ⟨.log, .under (.pass 512) (.under .native .null)⟩ ≠ some (.ok y) :=
  (C84_stack_violated true (.pass 512) (by decide) (.under .native .null) rfl).2 fuel y

end Verif.Props
