import Verif.Props.Dump
import Verif.Props.Rows

/-
C71: h5ldump of files with whole rows.
-/

namespace Verif.Props

open _root_.Verif.Spec (AW AFile Reach Lists)

def drObjs : List VObj := [⟨"d".toList, some (some (0, rwD))⟩]

/-- **C71 is violated: whole rows.** One `H5Dwrite_n` of two rows and the close of the file succeed.  h5ldump of this file
aborts, whatever its memory contained; without the data (option `-H`) it prints two blocks without cells. -/
theorem C71_rows_violated (share compact : Bool) (junk : Ext → Nat → Nat) : ∃ st1 st2,
    (rwFile share compact).write 0 0 rwW.bs rwW.data = .ok st1 ∧ st1.close 1000 2000 = .ok st2 ∧
    Lists drObjs ((AFile.create 1).addDset rwD).dsets ∧ st2.dump drObjs true junk = .err ∧
    ∃ out, st2.dump drObjs false junk = .ok out ∧
      out.flatten.flatten.map (fun e => e.blks.map (·.blk)) = [[⟨[0, 0], [2, 0]⟩, ⟨[2, 0], [2, 0]⟩]] := by
  have h : ∀ share compact, okWith (fun st1 => okWith (fun st2 =>
      decide (st2.dump drObjs true (fun _ _ => 0) = .err) && okWith (fun out =>
        decide (out.flatten.flatten.map (fun e => e.blks.map (·.blk)) = [[⟨[0, 0], [2, 0]⟩, ⟨[2, 0], [2, 0]⟩]]))
        (st2.dump drObjs false (fun _ _ => 0)))
      (st1.close 1000 2000)) ((rwFile share compact).write 0 0 rwW.bs rwW.data) = true := by decide +kernel
  obtain ⟨st1, a1, a2⟩ := okWith_iff (h share compact)
  obtain ⟨st2, b1, b2⟩ := okWith_iff a2
  rw [Bool.and_eq_true, decide_eq_true_eq] at b2
  obtain ⟨out, o1, o2⟩ := okWith_iff b2.2
  refine ⟨st1, st2, a1, b1, ?_, by rw [dump_junk (junk' := fun _ _ => 0)]; exact b2.1, out,
    by rw [dump_junk (junk' := fun _ _ => 0)]; exact o1, by simpa using o2⟩
  constructor
  · intro i d hi
    rcases i with _ | i
    · simp only [AFile.create, AFile.addDset, List.nil_append, List.getElem?_cons_zero, Option.some.injEq] at hi
      subst hi
      exact ⟨⟨"d".toList, some (some (0, rwD))⟩, by simp [drObjs], by decide +kernel, rfl⟩
    · simp [AFile.create, AFile.addDset] at hi
  · intro o ho _ x hx
    simp only [drObjs, List.mem_cons, List.not_mem_nil, or_false] at ho
    subst ho
    simp only [Option.some.injEq] at hx
    exact ⟨0, rwD, hx.symm, rfl⟩

end Verif.Props
