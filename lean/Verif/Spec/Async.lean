import Verif.Model.Async

/-
What is expected of a request.
-/

namespace Verif.Spec

/-- An operation is waitable: if it gives no request, it has left nothing behind in the under VOL that is still to complete;
if it gives one, then, whatever statuses the requests of the under VOL end with, waiting for it succeeds and reports success
exactly if all of them have succeeded.  `inst`: whether the class of the connector has request callbacks. -/
def Waitable (inst : Bool) (s : RqSt) : Prop :=
  match s.out with
  | none => s.issued = []
  | some o => ∀ stat : Nat → RStat, (∀ h, stat h ≠ .progress) →
      ∃ st, appWait inst stat s.issued o = .ok st ∧ (st = .succeed ↔ ∀ h ∈ s.issued, stat h = .succeed)

/-- An object made by the callback that nobody can reach any more. -/
def Leaks (s : RqSt) : Prop := ∃ q, s.rp = some q ∧ ∀ q', s.out ≠ some (.obj q')

end Verif.Spec
