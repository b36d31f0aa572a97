import Verif.Lemmas.FileTop

namespace Verif

open Spec (AW AFile)

/-- The sections of a closed file have all writes. -/
theorem Inv.secs_perm {cfg : Cfg} {g : Ghost} {st : FState} {a : AFile} (h : Inv cfg g st a) (he : a.epoch.flatten = []) :
    a.secs.flatten.Perm a.done := by
  have hfl : g.rs.flatMap RS.fl = [] := by
    rw [h.epoch, List.flatten_eq_nil_iff] at he
    rw [List.flatMap_eq_nil_iff]
    intro y hy
    have := he _ (List.mem_map.mpr ⟨y, hy, rfl⟩)
    simpa using this
  have h1 := h.perm.map Prod.fst
  rw [h.done, hfl, List.append_nil, List.map_map] at h1
  refine (h1.trans (List.Perm.of_eq ?_)).symm
  rw [← h.ord.2, ← List.map_flatten]
  rfl

end Verif
