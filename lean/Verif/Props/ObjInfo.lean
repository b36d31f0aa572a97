import Verif.Model.ObjInfo

/-
C60: the number of attributes reported for an object is the number of attributes the user created.
-/

namespace Verif.Props

/-- Number of attributes the connector adds to an object. -/
def Spec.extraAttrs (log : Bool) (k : ObjKind) : Nat := if log then skipCount k else 0

theorem storedObj_length (log : Bool) (k : ObjKind) (user : List Name) :
    (storedObj log k user).attrs.length = user.length + Spec.extraAttrs log k := by
  unfold storedObj Spec.extraAttrs
  cases log <;> cases k <;> rfl

theorem subU64_eq_iff (a b n : Nat) (ha : a < 2 ^ 64) (hb : b ≤ 3) (hn : n < 2 ^ 64) (h3 : n + 3 < 2 ^ 64) :
    subU64 a b = n ↔ a = n + b := by
  unfold subU64
  omega

/-- C60 holds exactly when the handle is of the kind of the object in a log-based file, or of a kind for which nothing is
deducted when nothing was added: the number reported is right if and only if the number deducted for the handle is the number
the connector added to the object. -/
theorem C60_info_partial (log : Bool) (handle k : ObjKind) (user : List Name) (h : user.length + 3 < 2 ^ 64) :
    infoAttrs handle (storedObj log k user) = user.length ↔ skipCount handle = Spec.extraAttrs log k := by
  have h1 : Spec.extraAttrs log k ≤ 3 := by cases log <;> cases k <;> decide
  have h2 : skipCount handle ≤ 3 := by cases handle <;> decide
  unfold infoAttrs
  rw [storedObj_length, Nat.mod_eq_of_lt (by omega), subU64_eq_iff _ _ _ (by omega) h2 (by omega) h]
  omega

/-- In particular for an object asked through its own handle in a log-based file. -/
theorem C60_self_partial (k : ObjKind) (user : List Name) (h : user.length + 3 < 2 ^ 64) :
    infoAttrs k (storedObj true k user) = user.length := (C60_info_partial true k k user h).2 rfl

example : infoAttrs .dataset (storedObj true .dataset ["units".toList, "__x".toList]) = 2 := by decide

/-- C60 is violated by name: a group without attributes asked from the file has 2^64 - 1 attributes, and every dataset asked
from the file has two too many. -/
theorem C60_by_name_violated (user : List Name) (h : user.length + 3 < 2 ^ 64) :
    infoAttrs .file (storedObj true .group []) = 2 ^ 64 - 1 ∧
    infoAttrs .file (storedObj true .dataset user) = user.length + 2 ∧
    infoAttrs .group (storedObj true .dataset user) = user.length + 3 := by
  refine ⟨by decide +kernel, ?_, ?_⟩ <;>
  · unfold infoAttrs
    rw [storedObj_length]
    simp only [skipCount, Spec.extraAttrs, if_true, subU64]
    omega

/-- C60 is violated for the root group opened as a group: one too many. -/
theorem C60_root_violated (user : List Name) (h : user.length + 3 < 2 ^ 64) :
    infoAttrs .group (storedObj true .file user) = user.length + 1 := by
  unfold infoAttrs
  rw [storedObj_length]
  simp only [skipCount, Spec.extraAttrs, if_true, subU64]
  omega

/-- C60 is violated for ordinary files opened through the connector: a dataset without attributes has 2^64 - 3, the file
2^64 - 1. -/
theorem C60_plain_violated :
    infoAttrs .dataset (storedObj false .dataset []) = 2 ^ 64 - 3 ∧ infoAttrs .file (storedObj false .file []) = 2 ^ 64 - 1 := by
  decide +kernel

/-- C60 is violated by visits: every dataset is reported with three too many. -/
theorem C60_visit_violated (k : ObjKind) (user : List Name) (h : user.length + 3 < 2 ^ 64) :
    visitAttrs (storedObj true k user) = user.length + skipCount k := by
  unfold visitAttrs
  rw [storedObj_length]
  have h1 : skipCount k ≤ 3 := by cases k <;> decide
  simp only [Spec.extraAttrs, if_true]
  omega

end Verif.Props
