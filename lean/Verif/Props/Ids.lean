import Verif.Model.Ids
import Verif.Props.Names
import Mathlib.Data.List.Nodup

/-
C39: identifiers of datasets.
-/

namespace Verif.Props

/-- Number of identifiers handed out so far, as far as the file or the open file knows. -/
def curIds (st : IdState) : Nat := st.sess.elim st.saved (·.ndset)

/-- Invariant of histories without crash. -/
structure IdInv (st : IdState) : Prop where
  names : (st.objs.map (·.name)).Nodup
  ids : (st.objs.filterMap (·.id)).Nodup
  bound : ∀ o ∈ st.objs, ∀ i, o.id = some i → i < curIds st
  len : ∀ s, st.sess = some s → s.infos.length = s.ndset
  ro : ∀ s, st.sess = some s → s.rdonly = true → s.ndset = st.saved
  le : ∀ s, st.sess = some s → st.saved ≤ s.ndset
  info : ∀ s, st.sess = some s → ∀ o ∈ st.objs, ∀ i d, o.id = some i → s.infos[i]? = some (some d) → o.d = d

theorem findObj_some {l : List DObj} {n : Name} {o : DObj} (h : findObj l n = some o) : o ∈ l ∧ o.name = n := by
  unfold findObj at h
  refine ⟨List.mem_of_find?_eq_some h, ?_⟩
  have := List.find?_some h
  simpa using this

theorem findObj_none {l : List DObj} {n : Name} (h : findObj l n = none) : ∀ o ∈ l, o.name ≠ n := by
  unfold findObj at h
  rw [List.find?_eq_none] at h
  intro o ho e
  exact h o ho (by simp [e])

theorem findObj_eq {l : List DObj} (hn : (l.map (·.name)).Nodup) {o : DObj} (ho : o ∈ l) : findObj l o.name = some o := by
  induction l with
  | nil => simp at ho
  | cons a l ih =>
    rw [List.map_cons, List.nodup_cons] at hn
    unfold findObj
    rw [List.find?_cons]
    rcases List.mem_cons.mp ho with rfl | ho
    · simp
    · have : (a.name == o.name) = false := by
        rw [beq_eq_false_iff_ne]
        intro e
        exact hn.1 (by rw [e]; exact List.mem_map_of_mem ho)
      rw [this]
      exact ih hn.2 ho

/-- Opening a dataset in a consistent state. -/
theorem openObj_ok {st : IdState} {s : IdSess} {o : DObj} {i : Nat} (hl : s.infos.length = s.ndset)
    (hids : (st.objs.filterMap (·.id)).Nodup) (hinfo : ∀ o ∈ st.objs, ∀ i d, o.id = some i → s.infos[i]? = some (some d) → o.d = d)
    (ho : o ∈ st.objs) (hi : o.id = some i) (hb : i < s.ndset) :
    ∃ s', openObj s o = .ok s' ∧ s'.ndset = s.ndset ∧ s'.rdonly = s.rdonly ∧ s'.infos.length = s'.ndset ∧
      s'.infos[i]? = some (some o.d) ∧
      ∀ o ∈ st.objs, ∀ i d, o.id = some i → s'.infos[i]? = some (some d) → o.d = d := by
  unfold openObj
  simp only [hi]
  have hlt : i < s.infos.length := by omega
  cases hx : s.infos[i]? with
  | none =>
    rw [List.getElem?_eq_none_iff] at hx
    omega
  | some x =>
    cases x with
    | some d =>
      have := hinfo o ho i d hi hx
      exact ⟨s, rfl, rfl, rfl, hl, by rw [this, hx], hinfo⟩
    | none =>
      refine ⟨_, rfl, rfl, rfl, by simp [hl], by simp [hlt], ?_⟩
      intro p hp j d hj hd
      by_cases e : i = j
      · subst e
        simp only [List.getElem?_set_self hlt, Option.some.injEq] at hd
        have : p = o := by
          clear hd hinfo hb hlt hx
          obtain ⟨a, b, e1⟩ := List.append_of_mem ho
          rw [e1, List.filterMap_append, List.filterMap_cons, hi, List.nodup_append] at hids
          rw [e1] at hp
          rcases List.mem_append.mp hp with h | h
          · exact absurd rfl (hids.2.2 i (List.mem_filterMap.mpr ⟨p, h, hj⟩) i (by simp))
          · rcases List.mem_cons.mp h with h | h
            · exact h
            · have := hids.2.1
              rw [List.nodup_cons] at this
              exact absurd (List.mem_filterMap.mpr ⟨p, h, hj⟩) this.1
        rw [this, hd]
      · simp only [List.getElem?_set_ne e] at hd
        exact hinfo p hp j d hj hd

theorem nameRemap_cases (n : Name) : nameRemap n = .err ∨ ∃ s, nameRemap n = .ok s := by
  unfold nameRemap
  by_cases h : n = []
  · rw [if_pos h]
    exact Or.inl rfl
  · rw [if_neg h]
    by_cases u : n.head? = some '_'
    · rw [if_pos u]
      exact Or.inr ⟨_, rfl⟩
    · rw [if_neg u]
      exact Or.inr ⟨_, rfl⟩

/-- The visit never leaves the array and keeps the descriptions right. -/
theorem visitObjs_spec {st : IdState} {s : IdSess} (hl : s.infos.length = s.ndset)
    (hids : (st.objs.filterMap (·.id)).Nodup) (hinfo : ∀ o ∈ st.objs, ∀ i d, o.id = some i → s.infos[i]? = some (some d) → o.d = d)
    (hb : ∀ o ∈ st.objs, ∀ i, o.id = some i → i < s.ndset) (os : List DObj) :
    visitObjs st.objs s os = .err ∨ ∃ s', visitObjs st.objs s os = .ok s' ∧ s'.ndset = s.ndset ∧ s'.rdonly = s.rdonly ∧
      s'.infos.length = s'.ndset ∧ ∀ o ∈ st.objs, ∀ i d, o.id = some i → s'.infos[i]? = some (some d) → o.d = d := by
  induction os generalizing s with
  | nil => exact Or.inr ⟨s, rfl, rfl, rfl, hl, hinfo⟩
  | cons o os ih =>
    unfold visitObjs
    cases visitName o.name with
    | none => exact ih hl hinfo hb
    | some n =>
      simp only
      rcases nameRemap_cases n with h | ⟨nm, h⟩
      · rw [h]
        exact Or.inl rfl
      · rw [h, Res.ok_bind]
        cases hf : findObj st.objs nm with
        | none => exact Or.inl rfl
        | some p =>
          simp only
          have hp := (findObj_some hf).1
          cases hi : p.id with
          | none =>
            left
            unfold openObj
            simp only [hi]
            rfl
          | some i =>
            obtain ⟨s', e, h1, h2, h3, _, h4⟩ := openObj_ok hl hids hinfo hp hi (hb p hp i hi)
            rw [e, Res.ok_bind]
            rcases ih h3 h4 (by rw [h1]; exact hb) with h | ⟨s'', e', g1, g2, g3, g4⟩
            · exact Or.inl h
            · exact Or.inr ⟨s'', e', by rw [g1, h1], by rw [g2, h2], g3, g4⟩

/-- The dataset with the stored name `nm` is neither deleted nor renamed by the call. -/
def Spec.keeps (nm : Name) : IdOp → Prop
  | .delete n => nameRemap n ≠ .ok nm
  | .move a _ => nameRemap a ≠ .ok nm
  | _ => True

/-- What one call guarantees. -/
structure StepOK (st : IdState) (op : IdOp) (r : IdState × IdOut) : Prop where
  inv : IdInv r.1
  mono : curIds st ≤ curIds r.1
  fresh : ∀ n d i, op = .create n d → r.2 = .id i → i = curIds st ∧ curIds r.1 = i + 1 ∧
    ∃ nm, nameRemap n = .ok nm ∧ findObj r.1.objs nm = some ⟨nm, some i, d⟩
  kept : ∀ nm o, findObj st.objs nm = some o → Spec.keeps nm op → findObj r.1.objs nm = some o

theorem outcome_ok {st : IdState} {r : Res (IdState × IdOut)} {P : IdState × IdOut → Prop}
    (h : r = .err ∨ ∃ x, r = .ok x ∧ P x) (hf : P (st, .failed)) : ∃ x, st.outcome r = .ok x ∧ P x := by
  rcases h with h | ⟨x, h, hx⟩
  · subst h
    exact ⟨_, rfl, hf⟩
  · subst h
    exact ⟨_, rfl, hx⟩

theorem stepOK_same {st : IdState} {op : IdOp} (h : IdInv st) : StepOK st op (st, .failed) where
  inv := h
  mono := Nat.le_refl _
  fresh := fun _ _ _ _ e => by cases e
  kept := fun _ _ h _ => h

/-- A call that needs an open file and the name of a dataset. -/
theorem named_ok {st : IdState} {n : Name} {f : IdSess → Name → Res (IdState × IdOut)} {P : IdState × IdOut → Prop}
    (h : ∀ s nm, st.sess = some s → nameRemap n = .ok nm → f s nm = .err ∨ ∃ x, f s nm = .ok x ∧ P x) :
    (do
      let s ← st.open?
      let nm ← nameRemap n
      f s nm) = Res.err ∨ ∃ x, (do
      let s ← st.open?
      let nm ← nameRemap n
      f s nm) = Res.ok x ∧ P x := by
  unfold IdState.open?
  cases hs : st.sess with
  | none => exact Or.inl rfl
  | some s =>
    rw [Option.elim_some, Res.ok_bind]
    rcases nameRemap_cases n with hn | ⟨nm, hn⟩
    · rw [hn]
      exact Or.inl rfl
    · rw [hn, Res.ok_bind]
      exact h s nm hs hn

theorem curIds_some {st : IdState} {s : IdSess} (h : st.sess = some s) : curIds st = s.ndset := by
  unfold curIds
  rw [h]
  rfl

theorem find_filter {l : List DObj} {nm a : Name} {o : DObj} (h : findObj l nm = some o) (hne : a ≠ nm) :
    findObj (l.filter (fun o => o.name != a)) nm = some o := by
  induction l with
  | nil => simp [findObj] at h
  | cons x l ih =>
    unfold findObj at h ih ⊢
    rw [List.find?_cons] at h
    by_cases e : x.name = nm
    · have e1 : (x.name == nm) = true := by simp [e]
      rw [e1] at h
      have e2 : (x.name != a) = true := by
        rw [bne_iff_ne, e]
        exact fun h => hne h.symm
      rw [List.filter_cons, if_pos e2, List.find?_cons, e1]
      exact h
    · have e1 : (x.name == nm) = false := by simp [e]
      rw [e1] at h
      rw [List.filter_cons]
      by_cases e2 : (x.name != a) = true
      · rw [if_pos e2, List.find?_cons, e1]
        exact ih h
      · rw [if_neg e2]
        exact ih h

theorem find_map {l : List DObj} {nm a b : Name} {o : DObj} (h : findObj l nm = some o) (hne : a ≠ nm)
    (hb : findObj l b = none) :
    findObj (l.map (fun o => if o.name = a then { o with name := b } else o)) nm = some o := by
  induction l with
  | nil => simp [findObj] at h
  | cons x l ih =>
    unfold findObj at h ih hb ⊢
    rw [List.find?_cons] at h
    have hb' : l.find? (fun o => o.name == b) = none := by
      rw [List.find?_eq_none] at hb ⊢
      exact fun y hy => hb y (by simp [hy])
    rw [List.map_cons, List.find?_cons]
    by_cases e : x.name = nm
    · have e1 : (x.name == nm) = true := by simp [e]
      rw [e1] at h
      rw [if_neg (by rw [e]; exact fun h => hne h.symm), e1]
      exact h
    · have e1 : (x.name == nm) = false := by simp [e]
      rw [e1] at h
      have hm := (findObj_some (l := l) h)
      by_cases e2 : x.name = a
      · have e3 : (b == nm) = false := by
          rw [beq_eq_false_iff_ne]
          rintro rfl
          exact findObj_none (l := l) hb' o hm.1 hm.2
        rw [if_pos e2]
        simp only [e3]
        exact ih h hb'
      · rw [if_neg e2, e1]
        exact ih h hb'

theorem find_append {l : List DObj} {nm : Name} {o p : DObj} (h : findObj l nm = some o) :
    findObj (l ++ [p]) nm = some o := by
  unfold findObj at h ⊢
  rw [List.find?_append, h]
  rfl

/-- Every call in a consistent state. -/
theorem idStep_ok {st : IdState} (h : IdInv st) (op : IdOp) (hc : op ≠ .crash) :
    ∃ r, idStep st op = .ok r ∧ StepOK st op r := by
  cases op with
  | crash => exact absurd rfl hc
  | copy a b => exact ⟨_, rfl, stepOK_same h⟩
  | create n d =>
    refine outcome_ok (named_ok (fun s nm hs hn => ?_)) (stepOK_same h)
    by_cases hx : (s.rdonly || (findObj st.objs nm).isSome) = true
    · rw [if_pos hx]
      exact Or.inl rfl
    · rw [if_neg hx]
      refine Or.inr ⟨_, rfl, ?_⟩
      rw [Bool.not_eq_true, Bool.or_eq_false_iff] at hx
      have hnone : findObj st.objs nm = none := by simpa using hx.2
      have hcur := curIds_some hs
      have hnew : ∀ o ∈ st.objs, o.id ≠ some s.ndset := by
        intro o ho e
        have := h.bound o ho _ e
        omega
      refine ⟨⟨?_, ?_, ?_, ?_, ?_, ?_, ?_⟩, ?_, ?_, ?_⟩
      · show ((st.objs ++ [_]).map DObj.name).Nodup
        rw [List.map_append, List.nodup_append]
        refine ⟨h.names, by simp, ?_⟩
        intro x hx y hy e
        obtain ⟨o, ho, rfl⟩ := List.mem_map.mp hx
        simp only [List.map_cons, List.map_nil, List.mem_singleton] at hy
        exact findObj_none hnone o ho (by rw [e, hy])
      · show ((st.objs ++ [_]).filterMap DObj.id).Nodup
        rw [List.filterMap_append, List.nodup_append]
        refine ⟨h.ids, by simp, ?_⟩
        intro x hx y hy e
        obtain ⟨o, ho, e'⟩ := List.mem_filterMap.mp hx
        simp at hy
        exact hnew o ho (by rw [e', e, hy])
      · intro o ho i hi
        show i < s.ndset + 1
        rcases List.mem_append.mp ho with ho | ho
        · have := h.bound o ho i hi
          omega
        · rw [List.mem_singleton] at ho
          subst ho
          injection hi with hi
          omega
      · intro s' hs'
        injection hs' with hs'
        subst hs'
        simp [h.len s hs]
      · intro s' hs' hr
        injection hs' with hs'
        subst hs'
        rw [hx.1] at hr
        cases hr
      · intro s' hs'
        injection hs' with hs'
        subst hs'
        have := h.le s hs
        show st.saved ≤ s.ndset + 1
        omega
      · intro s' hs' o ho i d' hi hd
        injection hs' with hs'
        subst hs'
        simp only at hd
        rcases List.mem_append.mp ho with ho | ho
        · have hb := h.bound o ho i hi
          rw [List.getElem?_append_left (by rw [h.len s hs]; omega)] at hd
          exact h.info s hs o ho i d' hi hd
        · rw [List.mem_singleton] at ho
          subst ho
          injection hi with hi
          rw [← hi, List.getElem?_append_right (by rw [h.len s hs]; omega), h.len s hs] at hd
          simpa using hd
      · rw [hcur]
        exact Nat.le_succ _
      · intro n' d' i hop ho
        cases hop
        injection ho with ho
        subst ho
        refine ⟨hcur.symm, rfl, nm, hn, ?_⟩
        unfold findObj at hnone ⊢
        rw [List.find?_append, hnone]
        simp
      · exact fun _ _ hf _ => find_append hf
  | createBroken n d =>
    refine outcome_ok (named_ok (fun s nm hs hn => ?_)) (stepOK_same h)
    by_cases hx : (s.rdonly || (findObj st.objs nm).isSome) = true
    · rw [if_pos hx]
      exact Or.inl rfl
    · rw [if_neg hx]
      refine Or.inr ⟨_, rfl, ?_⟩
      rw [Bool.not_eq_true, Bool.or_eq_false_iff] at hx
      have hnone : findObj st.objs nm = none := by simpa using hx.2
      have hm : ∀ o, o ∈ st.objs ++ [⟨nm, none, d⟩] → ∀ i, o.id = some i → o ∈ st.objs := by
        intro o ho i hi
        rcases List.mem_append.mp ho with ho | ho
        · exact ho
        · rw [List.mem_singleton] at ho
          subst ho
          cases hi
      refine ⟨⟨?_, ?_, ?_, h.len, h.ro, h.le, ?_⟩, Nat.le_refl _, fun _ _ _ e => (by cases e), fun _ _ hf _ => find_append hf⟩
      · show ((st.objs ++ [_]).map DObj.name).Nodup
        rw [List.map_append, List.nodup_append]
        refine ⟨h.names, by simp, ?_⟩
        intro x hx y hy e
        obtain ⟨o, ho, rfl⟩ := List.mem_map.mp hx
        simp only [List.map_cons, List.map_nil, List.mem_singleton] at hy
        exact findObj_none hnone o ho (by rw [e, hy])
      · show ((st.objs ++ [_]).filterMap DObj.id).Nodup
        rw [List.filterMap_append]
        simpa using h.ids
      · exact fun o ho i hi => h.bound o (hm o ho i hi) i hi
      · exact fun s' hs' o ho i d' hi hd => h.info s' hs' o (hm o ho i hi) i d' hi hd
  | delete n =>
    refine outcome_ok (named_ok (fun s nm hs hn => ?_)) (stepOK_same h)
    by_cases hx : (s.rdonly || (findObj st.objs nm).isNone) = true
    · rw [if_pos hx]
      exact Or.inl rfl
    · rw [if_neg hx]
      refine Or.inr ⟨_, rfl, ⟨?_, ?_, ?_, h.len, h.ro, h.le, ?_⟩, Nat.le_refl _, fun _ _ _ e => (by cases e), ?_⟩
      · exact List.Nodup.sublist (List.Sublist.map _ List.filter_sublist) h.names
      · exact List.Nodup.sublist (List.Sublist.filterMap _ List.filter_sublist) h.ids
      · exact fun o ho i hi => h.bound o (List.mem_filter.mp ho).1 i hi
      · exact fun s' hs' o ho i d' hi hd => h.info s' hs' o (List.mem_filter.mp ho).1 i d' hi hd
      · intro nm' o hf hk
        exact find_filter hf (fun e => hk (by rw [hn, e]))
  | move a b =>
    refine outcome_ok (named_ok (fun s na hs hna => ?_)) (stepOK_same h)
    rcases nameRemap_cases b with hb | ⟨nb, hb⟩
    · rw [hb]
      exact Or.inl rfl
    rw [hb, Res.ok_bind]
    by_cases hx : (s.rdonly || (findObj st.objs na).isNone || (findObj st.objs nb).isSome) = true
    · rw [if_pos hx]
      exact Or.inl rfl
    · rw [if_neg hx]
      rw [Bool.not_eq_true, Bool.or_eq_false_iff] at hx
      have hnone : findObj st.objs nb = none := by simpa using hx.2
      have hm : ∀ o, o ∈ st.objs.map (fun o => if o.name = na then { o with name := nb } else o) →
          ∃ p ∈ st.objs, p.id = o.id ∧ p.d = o.d := by
        intro o ho
        obtain ⟨p, hp, rfl⟩ := List.mem_map.mp ho
        refine ⟨p, hp, ?_⟩
        by_cases e : p.name = na
        · rw [if_pos e]
          exact ⟨rfl, rfl⟩
        · rw [if_neg e]
          exact ⟨rfl, rfl⟩
      refine Or.inr ⟨_, rfl, ⟨?_, ?_, ?_, h.len, h.ro, h.le, ?_⟩, Nat.le_refl _, fun _ _ _ e => (by cases e), ?_⟩
      · show ((st.objs.map _).map DObj.name).Nodup
        rw [List.map_map]
        have e1 : st.objs.map (DObj.name ∘ fun o => if o.name = na then { o with name := nb } else o) =
            (st.objs.map (·.name)).map (fun x => if x = na then nb else x) := by
          rw [List.map_map]
          apply List.map_congr_left
          intro o _
          simp only [Function.comp]
          split <;> rfl
        rw [e1]
        have hnb : nb ∉ st.objs.map (·.name) := by
          intro hmem
          obtain ⟨o, ho, e⟩ := List.mem_map.mp hmem
          exact findObj_none hnone o ho e
        refine List.Nodup.map_on ?_ h.names
        intro x hx y hy e
        by_cases ex : x = na
        · by_cases ey : y = na
          · rw [ex, ey]
          · rw [if_pos ex, if_neg ey] at e
            exact absurd (e ▸ hy) hnb
        · by_cases ey : y = na
          · rw [if_neg ex, if_pos ey] at e
            exact absurd (e ▸ hx) hnb
          · rw [if_neg ex, if_neg ey] at e
            exact e
      · show ((st.objs.map _).filterMap DObj.id).Nodup
        rw [List.filterMap_map]
        have e1 : (DObj.id ∘ fun o => if o.name = na then { o with name := nb } else o) = DObj.id := by
          funext o
          simp only [Function.comp]
          split <;> rfl
        rw [e1]
        exact h.ids
      · intro o ho i hi
        obtain ⟨p, hp, e1, _⟩ := hm o ho
        exact h.bound p hp i (by rw [e1, hi])
      · intro s' hs' o ho i d' hi hd
        obtain ⟨p, hp, e1, e2⟩ := hm o ho
        rw [← e2]
        exact h.info s' hs' p hp i d' (by rw [e1, hi]) hd
      · intro nm' o hf hk
        exact find_map hf (fun e => hk (by rw [hna, e])) hnone
  | openD n =>
    refine outcome_ok (named_ok (fun s nm hs hn => ?_)) (stepOK_same h)
    cases hf : findObj st.objs nm with
    | none => exact Or.inl rfl
    | some o =>
      simp only
      have ho := (findObj_some hf).1
      cases hi : o.id with
      | none =>
        left
        unfold openObj
        simp only [hi]
        rfl
      | some i =>
        have hcur := curIds_some hs
        have hb := h.bound o ho i hi
        rw [hcur] at hb
        obtain ⟨s', e, h1, h2, h3, _, h4⟩ := openObj_ok (h.len s hs) h.ids (h.info s hs) ho hi hb
        rw [e, Res.ok_bind]
        have hcur' : curIds { st with sess := some s' } = curIds st := by rw [hcur, ← h1]; rfl
        refine Or.inr ⟨_, rfl, ⟨h.names, h.ids, ?_, ?_, ?_, ?_, ?_⟩, ?_, fun _ _ _ e => (by cases e), fun _ _ hf _ => hf⟩
        · intro p hp j hj
          rw [hcur']
          exact h.bound p hp j hj
        · intro t ht
          injection ht with ht
          subst ht
          exact h3
        · intro t ht hr
          injection ht with ht
          subst ht
          rw [h1]
          exact h.ro s hs (by rw [← h2]; exact hr)
        · intro t ht
          injection ht with ht
          subst ht
          rw [h1]
          exact h.le s hs
        · intro t ht
          injection ht with ht
          subst ht
          exact h4
        · exact Nat.le_of_eq hcur'.symm
  | openF ro =>
    refine outcome_ok ?_ (stepOK_same h)
    cases hs : st.sess with
    | some s => exact Or.inl rfl
    | none =>
      simp only
      have hcur : curIds st = st.saved := by
        unfold curIds
        rw [hs]
        rfl
      rcases visitObjs_spec (st := st) (s := ⟨st.saved, List.replicate st.saved none, ro⟩) (by simp) h.ids
          (by
            intro o _ i d _ hd
            rw [List.getElem?_replicate] at hd
            split at hd <;> simp at hd)
          (by
            intro o ho i hi
            have := h.bound o ho i hi
            show i < st.saved
            omega) st.objs with he | ⟨s', e, h1, h2, h3, h4⟩
      · rw [he]
        exact Or.inl rfl
      · rw [e, Res.ok_bind]
        have hcur' : curIds { st with sess := some s' } = curIds st := by rw [hcur]; exact h1
        refine Or.inr ⟨_, rfl, ⟨h.names, h.ids, ?_, ?_, ?_, ?_, ?_⟩, ?_, fun _ _ _ e => (by cases e), fun _ _ hf _ => hf⟩
        · intro p hp j hj
          rw [hcur']
          exact h.bound p hp j hj
        · intro t ht
          injection ht with ht
          subst ht
          exact h3
        · intro t ht hr
          injection ht with ht
          subst ht
          exact h1
        · intro t ht
          injection ht with ht
          subst ht
          exact Nat.le_of_eq h1.symm
        · intro t ht
          injection ht with ht
          subst ht
          exact h4
        · exact Nat.le_of_eq hcur'.symm
  | closeF =>
    refine outcome_ok ?_ (stepOK_same h)
    unfold IdState.open?
    cases hs : st.sess with
    | none => exact Or.inl rfl
    | some s =>
      have hcur := curIds_some hs
      have hcur' : (if s.rdonly = true then st.saved else s.ndset) = s.ndset := by
        by_cases hr : s.rdonly = true
        · rw [if_pos hr, h.ro s hs hr]
        · rw [if_neg hr]
      have hc2 : curIds { st with saved := if s.rdonly = true then st.saved else s.ndset, sess := none } = curIds st := by
        rw [hcur]
        exact hcur'
      refine Or.inr ⟨_, rfl, ⟨h.names, h.ids, ?_, fun _ e => (by cases e), fun _ e => (by cases e), fun _ e => (by cases e),
        fun _ e => (by cases e)⟩, ?_, fun _ _ _ e => (by cases e), fun _ _ hf _ => hf⟩
      · intro p hp j hj
        rw [hc2]
        exact h.bound p hp j hj
      · exact Nat.le_of_eq hc2.symm

theorem idInv_new : IdInv IdState.new := by
  refine ⟨by simp [IdState.new], by simp [IdState.new], by simp [IdState.new], ?_, ?_, ?_, ?_⟩ <;>
  · intro s hs
    injection hs with hs
    subst hs
    simp [IdState.new]

/-- Identifiers given to the datasets created in a history, in order. -/
def Spec.given : List IdOp → List IdOut → List Nat
  | .create _ _ :: ops, .id i :: outs => i :: Spec.given ops outs
  | _ :: ops, _ :: outs => Spec.given ops outs
  | _, _ => []

theorem given_cons (op : IdOp) (out : IdOut) (ops : List IdOp) (outs : List IdOut) :
    Spec.given (op :: ops) (out :: outs) = Spec.given ops outs ∨
      ∃ n d i, op = .create n d ∧ out = .id i ∧ Spec.given (op :: ops) (out :: outs) = i :: Spec.given ops outs := by
  cases op with
  | create n d =>
    cases out with
    | id i => exact Or.inr ⟨n, d, i, rfl, rfl, rfl⟩
    | done => exact Or.inl rfl
    | failed => exact Or.inl rfl
  | _ => exact Or.inl rfl

theorem idRun_ok {st : IdState} (h : IdInv st) (ops : List IdOp) (hc : .crash ∉ ops) :
    ∃ r, idRun st ops = .ok r ∧ IdInv r.1 ∧ curIds st ≤ curIds r.1 ∧ (Spec.given ops r.2).Pairwise (· < ·) ∧
      (∀ i ∈ Spec.given ops r.2, curIds st ≤ i) ∧
      ∀ nm o, findObj st.objs nm = some o → (∀ op ∈ ops, Spec.keeps nm op) → findObj r.1.objs nm = some o := by
  induction ops generalizing st with
  | nil => exact ⟨_, rfl, h, Nat.le_refl _, List.Pairwise.nil, by simp [Spec.given], fun _ _ hf _ => hf⟩
  | cons op ops ih =>
    obtain ⟨r, e, hr⟩ := idStep_ok h op (fun e => hc (by simp [e]))
    obtain ⟨t, e', h1, h2, h3, h4, h5⟩ := ih hr.inv (fun hm => hc (by simp [hm]))
    refine ⟨(t.1, r.2 :: t.2), ?_, h1, Nat.le_trans hr.mono h2, ?_, ?_, ?_⟩
    · unfold idRun
      rw [e, Res.ok_bind, e', Res.ok_bind]
      rfl
    · rcases given_cons op r.2 ops t.2 with hg | ⟨n, d, i, h6, h7, hg⟩
      · rw [hg]
        exact h3
      · rw [hg, List.pairwise_cons]
        obtain ⟨_, h8, _⟩ := hr.fresh n d i h6 h7
        exact ⟨fun j hj => by
          have := h4 j hj
          omega, h3⟩
    · rcases given_cons op r.2 ops t.2 with hg | ⟨n, d, i, h6, h7, hg⟩
      · rw [hg]
        intro j hj
        exact Nat.le_trans hr.mono (h4 j hj)
      · rw [hg]
        obtain ⟨h8, h9, _⟩ := hr.fresh n d i h6 h7
        intro j hj
        rcases List.mem_cons.mp hj with rfl | hj
        · exact Nat.le_of_eq h8.symm
        · exact Nat.le_trans hr.mono (h4 j hj)
    · intro nm o hf hk
      exact h5 nm o (hr.kept nm o hf (hk op (by simp))) (fun op' h' => hk op' (by simp [h']))

/-- **C39, unique (partial).** In every history of creations (also failing ones), deletions, renamings, copies, closes and opens,
every dataset created gets an identifier greater than all identifiers given before, also those of datasets deleted since, the
datasets in the file have different identifiers, and no access leaves the table of datasets.  Missing: processes that
end without closing the file, see `C39_crash_violated`. -/
theorem C39_unique_partial (ops : List IdOp) (hc : .crash ∉ ops) :
    ∃ st outs, idRun IdState.new ops = .ok (st, outs) ∧ (Spec.given ops outs).Pairwise (· < ·) ∧
      ∀ a ∈ st.objs, ∀ b ∈ st.objs, a.id ≠ none → a.id = b.id → a = b := by
  obtain ⟨r, e, h1, _, h3, _, _⟩ := idRun_ok idInv_new ops hc
  refine ⟨r.1, r.2, e, h3, ?_⟩
  intro a ha b hb hn e
  cases hi : a.id with
  | none => exact absurd hi hn
  | some i =>
    have hj : b.id = some i := by rw [← e, hi]
    have hids := h1.ids
    obtain ⟨x, y, e1⟩ := List.append_of_mem ha
    rw [e1, List.filterMap_append, List.filterMap_cons, hi, List.nodup_append] at hids
    rw [e1] at hb
    rcases List.mem_append.mp hb with h | h
    · exact absurd rfl (hids.2.2 i (List.mem_filterMap.mpr ⟨b, h, hj⟩) i (by simp))
    · rcases List.mem_cons.mp h with h | h
      · exact h.symm
      · have := hids.2.1
        rw [List.nodup_cons] at this
        exact absurd (List.mem_filterMap.mpr ⟨b, h, hj⟩) this.1

theorem idRun_append (st : IdState) (a b : List IdOp) :
    idRun st (a ++ b) = (idRun st a >>= fun r => idRun r.1 b >>= fun t => (pure (t.1, r.2 ++ t.2) : Res _)) := by
  induction a generalizing st with
  | nil =>
    rw [List.nil_append, idRun, Res.ok_bind]
    cases idRun st b with
    | ok r => rfl
    | err => rfl
    | ub => rfl
  | cons op a ih =>
    rw [List.cons_append, idRun, idRun]
    cases idStep st op with
    | err => rfl
    | ub => rfl
    | ok r =>
      rw [Res.ok_bind, Res.ok_bind, ih]
      cases idRun r.1 a with
      | err => rfl
      | ub => rfl
      | ok t =>
        rw [Res.ok_bind, Res.ok_bind]
        show _ = (idRun t.1 b >>= _)
        cases idRun t.1 b with
        | err => rfl
        | ub => rfl
        | ok u => rfl

/-- **C39, stable (partial).** A dataset keeps its identifier: whatever happens after it was created (closes, opens, creations,
deletions and renamings of other datasets), as long as it is not deleted or renamed itself, opening it gives the identifier
of its creation, and the table of datasets has its shape and type under this identifier. -/
theorem C39_stable_partial (h1 h2 : List IdOp) (n : Name) (d : DInfo) (i : Nat) (nm : Name) (hn : nameRemap n = .ok nm)
    (hc1 : .crash ∉ h1) (hc2 : .crash ∉ h2) (hk : ∀ op ∈ h2, Spec.keeps nm op) {st : IdState} {outs : List IdOut}
    (hr : idRun IdState.new (h1 ++ .create n d :: h2) = .ok (st, outs)) (ho : outs[h1.length]? = some (.id i))
    (hs : st.sess ≠ none) :
    ∃ st' s, idStep st (.openD n) = .ok (st', .id i) ∧ st'.sess = some s ∧ s.infos[i]? = some (some d) := by
  obtain ⟨r1, e1, i1, _⟩ := idRun_ok idInv_new h1 hc1
  obtain ⟨r2, e2, s2⟩ := idStep_ok i1 (.create n d) (by simp)
  obtain ⟨r3, e3, i3, _, _, _, k3⟩ := idRun_ok s2.inv h2 hc2
  rw [idRun_append, e1, Res.ok_bind, idRun, e2, Res.ok_bind, e3, Res.ok_bind] at hr
  have hr' : (r3.1, r1.2 ++ r2.2 :: r3.2) = (st, outs) := by
    injection hr
  injection hr' with hst hout
  have hlen : ∀ (st : IdState) (ops : List IdOp) (r : IdState × List IdOut), idRun st ops = .ok r → r.2.length = ops.length := by
    intro st ops
    induction ops generalizing st with
    | nil =>
      intro r h
      injection h with h
      subst h
      rfl
    | cons op ops ih =>
      intro r h
      unfold idRun at h
      cases h1 : idStep st op with
      | err => rw [h1] at h; cases h
      | ub => rw [h1] at h; cases h
      | ok a =>
        rw [h1, Res.ok_bind] at h
        cases h2 : idRun a.1 ops with
        | err => rw [h2] at h; cases h
        | ub => rw [h2] at h; cases h
        | ok b =>
          rw [h2, Res.ok_bind] at h
          injection h with h
          subst h
          simp [ih _ _ h2]
  have hl1 := hlen _ _ _ e1
  rw [← hout, List.getElem?_append_right (by omega), hl1, Nat.sub_self] at ho
  have ho' : r2.2 = .id i := by
    simpa using ho
  obtain ⟨_, _, nm', hn', hf⟩ := s2.fresh n d i rfl ho'
  rw [hn] at hn'
  injection hn' with hn'
  subst hn'
  have hf3 := k3 nm _ hf hk
  rw [hst] at hf3 i3
  cases hss : st.sess with
  | none => exact absurd hss hs
  | some s =>
    have hmem := (findObj_some hf3).1
    have hb := i3.bound _ hmem i rfl
    rw [curIds_some hss] at hb
    obtain ⟨s', e, _, _, _, h6, _⟩ := openObj_ok (i3.len s hss) i3.ids (i3.info s hss) hmem rfl hb
    refine ⟨{ st with sess := some s' }, s', ?_, rfl, h6⟩
    show st.outcome _ = _
    unfold IdState.open?
    rw [hss, Option.elim_some, Res.ok_bind, hn, Res.ok_bind, hf3]
    simp only
    rw [e]
    rfl

/-- **C39 is violated: crash.** A dataset is created in a new file and the processes end without closing it (for instance after a
flush); the attribute does not count the dataset, and opening the file accesses memory outside the table of datasets. -/
theorem C39_crash_violated (d : DInfo) : idRun IdState.new [.create "x".toList d, .crash, .openF false] = .ub := rfl

/-- **C39 is violated: crash, identifiers.** A dataset that the visit skips does not prevent the file from being opened; the next
dataset created gets the same identifier. -/
theorem C39_crash_same (d : DInfo) : ∃ st, idRun IdState.new [.create ".x".toList d, .crash, .openF false, .create "y".toList d] =
    .ok (st, [.id 0, .done, .done, .id 0]) := ⟨_, rfl⟩

/-- **C39 is violated: failing creation.** After a creation that failed when the anchor dataset had been created, the file cannot
be opened any more. -/
theorem C39_failed_violated (d : DInfo) :
    ∃ st, idRun IdState.new [.create "x".toList d, .createBroken "y".toList d, .closeF, .openF false, .openD "x".toList] =
      .ok (st, [.id 0, .failed, .done, .failed, .failed]) := ⟨_, rfl⟩

/-! ### Concrete cases -/

/-- Creations, a deletion, a rename, closing and opening. -/
def idHist (d : DInfo) : List IdOp :=
  [.create "x".toList d, .create "_y".toList d, .copy "x".toList "c".toList, .delete "x".toList, .closeF, .openF false,
    .create "x".toList d, .move "_y".toList "z".toList, .closeF, .openF true, .openD "z".toList, .openD "x".toList]

example (d : DInfo) : ∃ st, idRun IdState.new (idHist d) = .ok (st, [.id 0, .id 1, .failed, .done, .done, .done, .id 2, .done, .done,
    .done, .id 1, .id 2]) := ⟨_, rfl⟩

example (d : DInfo) : .crash ∉ idHist d := by simp [idHist]

/-- A case of `C39_stable_partial`. -/
example (d : DInfo) : ∃ st outs, idRun IdState.new ([.create "a".toList d] ++ .create "x".toList d :: [.closeF, .delete "a".toList,
    .openF false, .delete "a".toList]) = .ok (st, outs) ∧ outs[1]? = some (.id 1) ∧ st.sess ≠ none :=
  ⟨_, _, rfl, rfl, by simp⟩

end Verif.Props
