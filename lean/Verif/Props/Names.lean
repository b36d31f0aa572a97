import Verif.Spec.Names

/-
C31 (names) and C49 (every dataset of a reopened file is known).
-/

namespace Verif.Props
open Spec (escapePath Reserved InnerUnderscore)

theorem escape_false (p : Name) (h : ¬ InnerUnderscore p) : escapePath false p = p := by
  induction p with
  | nil => rfl
  | cons c r ih =>
    have hr : ¬ InnerUnderscore r := fun hi => h (List.infix_cons hi)
    simp only [escapePath]
    by_cases hc : c = '/'
    · subst hc
      simp only [decide_true]
      cases r with
      | nil => rfl
      | cons d r' =>
        have hd : d ≠ '_' := by
          rintro rfl
          exact h ⟨[], r', rfl⟩
        have := ih hr
        simp only [escapePath] at this ⊢
        rw [if_neg hd, this]
    · rw [decide_eq_false hc, ih hr]

theorem escape_length : ∀ (b : Bool) (p : Name), p.length ≤ (escapePath b p).length
  | _, [] => by simp
  | true, c :: r => by
    simp only [escapePath]
    split
    · have := escape_length false r; simp only [List.length_cons]; omega
    · have := escape_length (decide (c = '/')) r; simp only [List.length_cons]; omega
  | false, c :: r => by
    have := escape_length (decide (c = '/')) r
    simp only [escapePath, List.length_cons]; omega

theorem escape_eq_iff : ∀ (p : Name), (escapePath false p = p ↔ ¬ InnerUnderscore p) := by
  intro p
  refine ⟨?_, escape_false p⟩
  intro h hin
  obtain ⟨a, b, e⟩ := hin
  induction a generalizing p with
  | nil =>
    subst e
    simp only [List.nil_append, List.cons_append, escapePath, decide_true, if_true, List.cons.injEq, true_and] at h
    have hl := escape_length false b
    have := congrArg List.length h
    simp only [List.length_cons] at this
    omega
  | cons c a ih =>
    subst e
    simp only [List.cons_append, escapePath, List.cons.injEq, true_and] at h
    by_cases hc : c = '/'
    · subst hc
      simp only [decide_true] at h
      cases a with
      | nil =>
        simp only [List.nil_append, List.cons_append, escapePath, if_neg (show ('/' : Char) ≠ '_' by decide), decide_true,
          if_true, List.cons.injEq, true_and] at h
        have hl := escape_length false b
        have := congrArg List.length h
        simp only [List.length_cons] at this
        omega
      | cons d a' =>
        simp only [List.cons_append, escapePath] at h
        by_cases hd : d = '_'
        · rw [if_pos hd] at h
          have := congrArg List.length h
          have hl := escape_length false (a' ++ ['/', '_'] ++ b)
          simp only [List.length_cons, List.append_assoc, List.cons_append, List.nil_append] at this hl
          omega
        · rw [if_neg hd] at h
          exact ih (d :: a' ++ ['/', '_'] ++ b) (by simpa [escapePath] using h) rfl
    · rw [decide_eq_false hc] at h
      exact ih _ h rfl

/-- C31: the mapping is injective on all names. -/
theorem C31_injective (a b c : Name) (ha : nameRemap a = .ok c) (hb : nameRemap b = .ok c) : a = b := by
  unfold nameRemap at ha hb
  by_cases ea : a = []
  · rw [if_pos ea] at ha; cases ha
  by_cases eb : b = []
  · rw [if_pos eb] at hb; cases hb
  rw [if_neg ea] at ha
  rw [if_neg eb] at hb
  by_cases ua : a.head? = some '_' <;> by_cases ub : b.head? = some '_'
  · rw [if_pos ua] at ha; rw [if_pos ub] at hb
    cases ha; cases hb; rfl
  · rw [if_pos ua] at ha; rw [if_neg ub] at hb
    cases ha; cases hb
    simp at ub
  · rw [if_neg ua] at ha; rw [if_pos ub] at hb
    cases ha; cases hb
    simp at ua
  · rw [if_neg ua] at ha; rw [if_neg ub] at hb
    cases ha; cases hb; rfl

/-- C31: the mapping is undone by iterations. -/
theorem C31_reported (s n : Name) : nameRemap n = .ok s → nameShown s = some n := by
  intro h
  unfold nameRemap at h
  by_cases e : n = []
  · rw [if_pos e] at h; cases h
  rw [if_neg e] at h
  by_cases u : n.head? = some '_'
  · rw [if_pos u] at h
    cases h
    simp [nameShown, u]
  · rw [if_neg u] at h
    cases h
    simp [nameShown, u]

theorem remap_tail : ∀ {s : Name}, s.head? = some '_' → s.tail.head? = some '_' → nameRemap s.tail = .ok s
  | [], u, _ => by simp at u
  | [c], _, v => by simp at v
  | c :: d :: r, u, v => by
    simp only [List.head?_cons, List.tail_cons, Option.some.injEq] at u v
    subst u; subst v
    rfl

/-- C31: iterations skip exactly the stored names that are not the image of a user name. -/
theorem C31_hidden (s : Name) (hs : s ≠ []) : nameShown s = none ↔ ∀ n, nameRemap n ≠ .ok s := by
  constructor
  · intro h n hn
    rw [C31_reported s n hn] at h
    cases h
  · intro h
    unfold nameShown
    by_cases u : s.head? = some '_'
    · rw [if_pos u]
      by_cases v : s.tail.head? = some '_'
      · exfalso
        refine h s.tail ?_
        exact remap_tail u v
      · rw [if_neg v]
    · exfalso
      refine h s ?_
      unfold nameRemap
      rw [if_neg hs, if_neg u]

theorem internal_reserved {s : Name} (h : InternalName s) : Reserved s := by
  cases h <;> refine ⟨?_, ?_⟩ <;> simp

/-- C31: a name without path separators is never mapped onto an internal name. -/
theorem C31_internal_partial (n s : Name) (h : nameRemap n = .ok s) : ¬ Reserved s ∧ ¬ InternalName s := by
  have key : ¬ Reserved s := by
    intro hr
    have := C31_reported s n h
    unfold nameShown at this
    rw [if_pos hr.1, if_neg hr.2] at this
    cases this
  exact ⟨key, fun hi => key (internal_reserved hi)⟩

/-- C31: on paths, the mapping is the intended one exactly when no later component starts with an underscore. -/
theorem C31_path_partial (p : Name) (hp : p ≠ []) : nameRemap p = .ok (escapePath true p) ↔ ¬ InnerUnderscore p := by
  rw [← escape_eq_iff]
  unfold nameRemap
  rw [if_neg hp]
  cases p with
  | nil => exact absurd rfl hp
  | cons c r =>
    by_cases hc : c = '_'
    · subst hc
      simp [escapePath, eq_comm]
    · rw [if_neg (by simpa using hc)]
      simp [escapePath, hc, eq_comm]

/-- The escaped form of a path never has an internal component. -/
theorem escape_first : ∀ p : Name, ¬ Reserved (escapePath true p)
  | [] => by simp [Reserved, escapePath]
  | c :: r => by
    simp only [escapePath]
    split
    · simp [Reserved]
    · rename_i hc; simp [Reserved, hc]

/-- C31 is violated for paths: "/_LOG/_ld_0" is passed on as it is and reaches the log; and "g/_x" is not found although "_x"
was created in group "g". -/
theorem C31_path_violated :
    (∃ p s : Name, nameRemap p = .ok s ∧ ∃ c ∈ Spec.components s, InternalName c) ∧
    (∃ g x s : Name, nameRemap x = .ok s ∧ nameRemap (g ++ ['/'] ++ x) ≠ .ok (g ++ ['/'] ++ s)) := by
  refine ⟨⟨"/_LOG/_ld_0".toList, "/_LOG/_ld_0".toList, by decide, "_LOG".toList, by decide, .log⟩, ?_⟩
  exact ⟨"g".toList, "_x".toList, "__x".toList, by decide, by decide⟩

/-- C31 is violated by calls that do not map the name: renaming attribute "_ID" of a dataset renames the internal one, and a
link created as "_x" is not found as "_x" and is skipped by iterations. -/
theorem C31_unmapped_violated :
    (∃ n, InternalName n ∧ NameUse.stored .unchanged n = .ok n) ∧
    (∃ n s, NameUse.stored .unchanged n = .ok s ∧ NameUse.stored .remapped n ≠ .ok s ∧ nameShown s = none) :=
  ⟨⟨"_ID".toList, .id, rfl⟩, ⟨"_x".toList, "_x".toList, rfl, by decide, by decide⟩⟩

/-- C31 is violated when an attribute is asked for its name: the stored name is reported. -/
theorem C31_attribute_violated : ∃ n s, nameRemap n = .ok s ∧ attrName s ≠ n :=
  ⟨"_x".toList, "__x".toList, by decide, by decide⟩

example : nameRemap "_x".toList = .ok "__x".toList ∧ nameShown "__x".toList = some "_x".toList ∧
    nameRemap "g/a_b".toList = .ok "g/a_b".toList := by decide

example : ¬ InnerUnderscore "_g/x".toList ∧ nameRemap "_g/x".toList = .ok "__g/x".toList := by
  refine ⟨?_, by decide⟩
  rw [← escape_eq_iff]
  decide

/-- C49: when a file is opened, every dataset that is not internal is opened under its stored name, unless the path starts
with a dot. -/
theorem C49_visit_partial (s : Name) (hs : s ≠ []) (hr : ¬ Reserved s) (h1 : s.head? ≠ some '/') (h2 : s.head? ≠ some '.') :
    ∃ n, visitName s = some n ∧ nameRemap n = .ok s := by
  unfold visitName
  rw [if_neg (fun h => h.elim hr (fun h => h.elim h1 h2))]
  by_cases u : s.head? = some '_'
  · rw [if_pos u]
    refine ⟨_, rfl, ?_⟩
    have v : s.tail.head? = some '_' := Decidable.byContradiction (fun hn => hr ⟨u, hn⟩)
    exact remap_tail u v
  · rw [if_neg u]
    refine ⟨_, rfl, ?_⟩
    unfold nameRemap
    rw [if_neg hs, if_neg u]

/-- C49 is violated by a dataset named ".x": it is skipped when the file is opened. -/
theorem C49_visit_violated : ∃ n s, nameRemap n = .ok s ∧ ¬ Reserved s ∧ visitName s = none :=
  ⟨".x".toList, ".x".toList, by decide, by simp [Reserved], by decide⟩

example : visitName "__x".toList = some "_x".toList ∧ visitName "_LOG/_ld_0".toList = none ∧
    visitName "g/__y".toList = some "g/__y".toList := by decide

end Verif.Props
