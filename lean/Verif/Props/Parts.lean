import Verif.Spec.Parts
import Verif.Props.TableRun

/-
C96: damage in any part of the metadata.
-/

namespace Verif.Props

open _root_.Verif.Spec (LoadsTo)

theorem loadLoop_to {st : FState} {lim : Nat} {qs : List RReq} {pos pos' : Nat × Nat} {bs : List (List Byte)}
    (h : LoadsTo st.disk st.mds lim pos bs pos') : ∀ {fuel : Nat}, bs.length < fuel →
    (∀ b ∈ bs, ∃ ix hs, (Idx.empty st.compact).parse st.dsets st.cfg.share b = .ok ix ∧ flatMapRes ix.search qs = .ok hs) →
    ∃ hs fuel', loadLoop st lim qs fuel pos = (loadLoop st lim qs (fuel' + 1) pos').bind fun hs' => .ok (hs ++ hs') := by
  induction h with
  | here pos =>
    intro fuel hf _
    obtain ⟨k, rfl⟩ : ∃ k, fuel = k + 1 := ⟨fuel - 1, by simp at hf; omega⟩
    refine ⟨[], k, ?_⟩
    cases loadLoop st lim qs (k + 1) pos <;> rfl
  | @part pos p1 p2 b bs h1 _ ih =>
    intro fuel hf hg
    rw [List.length_cons] at hf
    obtain ⟨k, rfl⟩ : ∃ k, fuel = k + 1 := ⟨fuel - 1, by omega⟩
    obtain ⟨ix, hs, g1, g2⟩ := hg b (List.mem_cons_self ..)
    obtain ⟨hs1, f1, e⟩ := ih (fuel := k) (by omega) fun x hx => hg x (List.mem_cons_of_mem _ hx)
    refine ⟨hs ++ hs1, f1, ?_⟩
    rw [loadLoop]
    simp only [h1, Res.ok_bind, g1, g2, e]
    cases loadLoop st lim qs (f1 + 1) p2 with
    | ok v => show Res.ok (hs ++ (hs1 ++ v)) = .ok (hs ++ hs1 ++ v); rw [List.append_assoc]
    | err => rfl
    | ub => rfl

/-- **C96.** For files whose metadata is loaded in parts the first damaged part decides about every read, wherever it is: a part that
cannot be loaded, and one that is loaded and refused or undefined, before which all parts are good. -/
theorem C96_anywhere {st : FState} {lim : Nat} (hm : st.mbuf = some lim) {qs : List RReq} {bs : List (List Byte)} {pos : Nat × Nat}
    (h : LoadsTo st.disk st.mds lim (0, 0) bs pos)
    (hg : ∀ b ∈ bs, ∃ ix hs, (Idx.empty st.compact).parse st.dsets st.cfg.share b = .ok ix ∧ flatMapRes ix.search qs = .ok hs)
    {fuel r : Nat} (hf : bs.length < fuel) :
    (loadPart st.disk st.mds lim pos.1 pos.2 = .err → st.search fuel r qs = .err) ∧
    (loadPart st.disk st.mds lim pos.1 pos.2 = .ub → st.search fuel r qs = .ub) ∧
    ∀ b p, loadPart st.disk st.mds lim pos.1 pos.2 = .ok (b, p) →
      ((Idx.empty st.compact).parse st.dsets st.cfg.share b = .err → st.search fuel r qs = .err) ∧
      ((Idx.empty st.compact).parse st.dsets st.cfg.share b = .ub → st.search fuel r qs = .ub) := by
  obtain ⟨hs, f, e⟩ := loadLoop_to (qs := qs) h hf hg
  have key : st.search fuel r qs = (loadLoop st lim qs fuel (0, 0)).bind fun hs => .ok (hs, st) := by
    unfold FState.search
    rw [hm]
    rfl
  rw [key, e, loadLoop]
  refine ⟨fun h1 => ?_, fun h1 => ?_, fun b p h1 => ⟨fun h2 => ?_, fun h2 => ?_⟩⟩
  · rw [h1]; rfl
  · rw [h1]; rfl
  · simp only [h1, Res.ok_bind, h2]; rfl
  · simp only [h1, Res.ok_bind, h2]; rfl

/-- One metadata dataset of two sections that are loaded one after the other; the second is zeros, or too short. -/
def ptState (compact : Bool) (x : List Byte) : FState :=
  { (FState.create ⟨true, true⟩ compact (some 40) 1 (writeAt (fun _ => 0) 100 (leN 8 2 ++ putWords [68, 68 + x.length] ++ dmP ++ x))).addDset dmD
    with mds := [⟨100, 68 + x.length⟩] }

example (compact : Bool) : (ptState compact (List.replicate 44 0)).mbuf = some 40 ∧
    LoadsTo (ptState compact (List.replicate 44 0)).disk (ptState compact (List.replicate 44 0)).mds 40 (0, 0) [dmP] (0, 1) ∧
    (∃ ix hs, (Idx.empty compact).parse [some dmD] true dmP = .ok ix ∧ flatMapRes ix.search [tbQ] = .ok hs) ∧
    loadPart (ptState compact (List.replicate 44 0)).disk (ptState compact (List.replicate 44 0)).mds 40 0 1 =
      .ok (List.replicate 44 0, none) ∧
    (Idx.empty compact).parse [some dmD] true (List.replicate 44 0) = .err ∧
    (Idx.empty compact).parse [some dmD] true (dmP.take 20) = .ub ∧
    (ptState compact (List.replicate 44 0)).search 5 0 [tbQ] = .err ∧ (ptState compact (dmP.take 20)).search 5 0 [tbQ] = .ub := by
  refine ⟨rfl, .part (pos' := (0, 1)) ?_ (.here _), ?_, ?_, ?_, ?_, ?_, ?_⟩
  case refine_2 =>
    have h : okWith (fun _ => true) (((Idx.empty compact).parse [some dmD] true dmP).bind fun ix => flatMapRes ix.search [tbQ]) = true := by
      cases compact <;> decide +kernel
    cases e : (Idx.empty compact).parse [some dmD] true dmP with
    | ok ix =>
      rw [e] at h
      cases e' : flatMapRes ix.search [tbQ] with
      | ok hs => exact ⟨ix, hs, rfl, e'⟩
      | err => simp [Res.bind, e', okWith] at h
      | ub => simp [Res.bind, e', okWith] at h
    | err => rw [e] at h; simp [Res.bind, okWith] at h
    | ub => rw [e] at h; simp [Res.bind, okWith] at h
  case refine_6 | refine_7 =>
    have hd : ∀ {r : Res (List Hit × FState)} {q : Res Unit}, (r.bind fun _ => .ok ()) = q → q = .err ∨ q = .ub →
        (q = .err → r = .err) ∧ (q = .ub → r = .ub) := by
      intro r q h1 h2
      cases r <;> subst h1 <;> simp [Res.bind] at h2 ⊢
    first
    | exact (hd (q := .err) (by cases compact <;> decide +kernel) (.inl rfl)).1 rfl
    | exact (hd (q := .ub) (by cases compact <;> decide +kernel) (.inr rfl)).2 rfl
  all_goals cases compact <;> decide +kernel

end Verif.Props
