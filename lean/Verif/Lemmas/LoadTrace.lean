import Verif.Lemmas.SecMap

namespace Verif

open Spec (loadTrace)

/-- The sections from a position on. -/
def secsFrom (mdx : List (List (List Byte))) (md sec : Nat) : List (List Byte) :=
  ((mdx[md]?).getD []).drop sec ++ (mdx.drop (md + 1)).flatten

theorem loadTrace_ok {disk : Mem} {mds : List Ext} {mdx : List (List (List Byte))} {lim : Nat}
    (hm : List.Forall₂ (fun e secs => SecOn disk e secs ∧ secs ≠ [] ∧ e.size < 2 ^ 64) mds mdx) :
    ∀ (fuel md sec : Nat) (secs : List (List Byte)), mdx[md]? = some secs → sec < secs.length →
      (secsFrom mdx md sec).length ≤ fuel →
      ∃ parts : List (List (List Byte)), loadTrace disk mds lim fuel (md, sec) = .ok (parts.map List.flatten) ∧
        parts.flatten = secsFrom mdx md sec ∧
        ∀ p ∈ parts, p ≠ [] ∧ (p.length = 1 ∨ p.flatten.length ≤ lim) := by
  intro fuel
  induction fuel with
  | zero =>
    intro md sec secs h1 h2 h3
    unfold secsFrom at h3
    rw [h1] at h3
    simp only [Option.getD_some, List.length_append, List.length_drop] at h3
    omega
  | succ fuel ih =>
    intro md sec secs h1 h2 h3
    obtain ⟨hmd, hsecs⟩ := List.getElem?_eq_some_iff.mp h1
    have hlen := hm.length_eq
    have hmd' : md < mds.length := by omega
    have hE : SecOn disk mds[md] secs ∧ secs ≠ [] ∧ mds[md].size < 2 ^ 64 := by
      have := (List.forall₂_iff_get.mp hm).2 md hmd' hmd
      simp only [List.get_eq_getElem, hsecs] at this
      exact this
    obtain ⟨i, i1, i2, i3, i4⟩ := hE.1.part (lim := lim) (List.getElem?_eq_getElem hmd') h2 hE.2.2
    obtain ⟨part, hpart⟩ : ∃ part, part = (secs.take i).drop sec := ⟨_, rfl⟩
    have hplen : part.length = i - sec := by rw [hpart, List.length_drop, List.length_take]; omega
    have hpok : part ≠ [] ∧ (part.length = 1 ∨ part.flatten.length ≤ lim) := by
      constructor
      · intro h0; rw [h0] at hplen; simp at hplen; omega
      · rcases i4 with i4 | i4
        · left; omega
        · right; rw [hpart]; exact i4
    rw [← hpart] at i3
    have hstep : loadTrace disk mds lim (fuel + 1) (md, sec) = (match
        (if mds.length ≤ (if secs.length ≤ i then md + 1 else md) then none
        else some (if secs.length ≤ i then md + 1 else md, if secs.length ≤ i then 0 else i) :
          Option (Nat × Nat)) with
      | none => .ok [part.flatten]
      | some pos' => (loadTrace disk mds lim fuel pos').bind (fun bs => .ok (part.flatten :: bs))) := by
      conv => lhs; unfold loadTrace
      simp only
      rw [i3]
      rfl
    rw [hstep]
    have hrest0 : secsFrom mdx md sec = secs.drop sec ++ (mdx.drop (md + 1)).flatten := by
      unfold secsFrom; rw [h1]; rfl
    have hdrop : secs.drop sec = part ++ secs.drop i := by
      have e : secs = secs.take i ++ secs.drop i := (List.take_append_drop i secs).symm
      conv => lhs; rw [e]
      rw [List.drop_append_of_le_length (by rw [List.length_take]; omega), hpart]
    by_cases hc1 : secs.length ≤ i
    · simp only [if_pos hc1]
      have hd0 : secs.drop i = [] := List.drop_eq_nil_of_le hc1
      rw [hd0, List.append_nil] at hdrop
      by_cases hc2 : mds.length ≤ md + 1
      · rw [if_pos hc2]
        refine ⟨[part], rfl, ?_, ?_⟩
        · rw [hrest0, hdrop, List.drop_eq_nil_of_le (as := mdx) (by omega)]; simp
        · intro p hp; rw [List.mem_singleton] at hp; rw [hp]; exact hpok
      · rw [if_neg hc2]
        have hmd1 : md + 1 < mdx.length := by omega
        have hE1 := (List.forall₂_iff_get.mp hm).2 (md + 1) (by omega) hmd1
        simp only [List.get_eq_getElem] at hE1
        have hr' : secsFrom mdx (md + 1) 0 = (mdx.drop (md + 1)).flatten := by
          unfold secsFrom
          rw [List.getElem?_eq_getElem hmd1, Option.getD_some, List.drop_zero,
            List.drop_eq_getElem_cons hmd1, List.flatten_cons]
        have hl3 : (secsFrom mdx (md + 1) 0).length ≤ fuel := by
          rw [hr']
          rw [hrest0, hdrop] at h3
          simp only [List.length_append] at h3 ⊢
          omega
        obtain ⟨parts, r1, r2, r3⟩ := ih (md + 1) 0 mdx[md + 1] (List.getElem?_eq_getElem hmd1)
          (List.length_pos_iff.mpr hE1.2.1) hl3
        refine ⟨part :: parts, ?_, ?_, ?_⟩
        · simp only [r1]; rfl
        · rw [List.flatten_cons, r2, hrest0, hdrop, hr']
        · intro p hp
          rcases List.mem_cons.mp hp with rfl | hp
          · exact hpok
          · exact r3 p hp
    · simp only [if_neg hc1]
      rw [if_neg (by omega)]
      have hr' : secsFrom mdx md i = secs.drop i ++ (mdx.drop (md + 1)).flatten := by
        unfold secsFrom; rw [h1]; rfl
      have hl3 : (secsFrom mdx md i).length ≤ fuel := by
        rw [hr']
        rw [hrest0, hdrop] at h3
        simp only [List.length_append] at h3 ⊢
        omega
      obtain ⟨parts, r1, r2, r3⟩ := ih md i secs h1 (by omega) hl3
      refine ⟨part :: parts, ?_, ?_, ?_⟩
      · simp only [r1]; rfl
      · rw [List.flatten_cons, r2, hrest0, hdrop, hr', List.append_assoc]
      · intro p hp
        rcases List.mem_cons.mp hp with rfl | hp
        · exact hpok
        · exact r3 p hp

/-- The search with bounded loading looks at these pieces, one after the other. -/
theorem loadLoop_trace (st : FState) (lim : Nat) (qs : List RReq) : ∀ (fuel : Nat) (pos : Nat × Nat)
    (bufs : List (List Byte)), loadTrace st.disk st.mds lim fuel pos = .ok bufs →
    loadLoop st lim qs fuel pos = flatMapRes (fun b =>
      ((Idx.empty st.compact).parse st.dsets st.cfg.share b).bind (fun ix => flatMapRes ix.search qs)) bufs := by
  intro fuel
  induction fuel with
  | zero => intro pos bufs h; simp [loadTrace] at h
  | succ fuel ih =>
    intro pos bufs h
    unfold loadTrace at h
    unfold loadLoop
    cases hp : loadPart st.disk st.mds lim pos.1 pos.2 with
    | err => rw [hp] at h; simp [Res.bind] at h
    | ub => rw [hp] at h; simp [Res.bind] at h
    | ok p =>
      rw [hp] at h
      simp only [Res.bind] at h
      simp only [Res.ok_bind]
      cases hp2 : p.2 with
      | none =>
        rw [hp2] at h
        simp only [Res.ok.injEq] at h
        subst h
        simp only [flatMapRes]
        cases (Idx.empty st.compact).parse st.dsets st.cfg.share p.1 with
        | err => rfl
        | ub => rfl
        | ok ix =>
          simp only [Res.ok_bind, Res.bind]
          cases flatMapRes ix.search qs with
          | err => rfl
          | ub => rfl
          | ok hs => simp [Res.ok_bind]
      | some pos' =>
        rw [hp2] at h
        simp only at h
        cases ht : loadTrace st.disk st.mds lim fuel pos' with
        | err => rw [ht] at h; simp at h
        | ub => rw [ht] at h; simp at h
        | ok bs =>
          rw [ht] at h
          simp only [Res.ok.injEq] at h
          subst h
          simp only [flatMapRes, ih pos' bs ht]
          cases (Idx.empty st.compact).parse st.dsets st.cfg.share p.1 with
          | err => rfl
          | ub => rfl
          | ok ix =>
            simp only [Res.ok_bind, Res.bind]

end Verif
