import Verif.Spec.Plain

namespace Verif.Plain

/-- The connector and the direct session hold the same handles. -/
structure Agree {σ : Type} (f : Nat) (st : St σ) (d : Direct σ) (lost : Bool) : Prop where
  below : st.below = d.below
  file : st.file = f
  handles : st.handles.map (fun h => (h.1, h.2.2, decide (h.2.1 = Cls.dset))) = d.opened
  none : lost = false → st.lost = 0

theorem find_map (o : Nat) : ∀ l : List (Nat × Cls × Typ),
    ((l.map (fun h => (h.1, h.2.2, decide (h.2.1 = Cls.dset)))).find? (fun h => h.1 == o)).map (·.2) =
      ((l.find? (fun h => h.1 == o)).map (·.2)).map (fun h => (h.2, decide (h.1 = Cls.dset)))
  | [] => rfl
  | h :: l => by
    by_cases e : h.1 = o
    · simp [e]
    · have e' : (h.1 == o) = false := by simpa using e
      simp only [List.map_cons, List.find?_cons, e']
      exact find_map o l

theorem Agree.typ {σ : Type} {f : Nat} {st : St σ} {d : Direct σ} {b : Bool} (A : Agree f st d b) (o : Nat) :
    d.typ o = (st.of o).map (fun h => (h.2, decide (h.1 = Cls.dset))) := by
  rw [Direct.typ, St.of, ← A.handles, find_map]

theorem Agree.isSome {σ : Type} {f : Nat} {st : St σ} {d : Direct σ} {b : Bool} (A : Agree f st d b) (o : Nat) :
    (d.typ o).isSome = !(st.of o).isNone := by
  rw [A.typ]; cases st.of o <;> rfl

theorem Agree.set {σ : Type} {f : Nat} {st : St σ} {d : Direct σ} {b : Bool} (A : Agree f st d b) (s : σ) :
    Agree f { st with below := s } ⟨s, d.opened⟩ b :=
  ⟨rfl, A.file, A.handles, A.none⟩

theorem Agree.weaken {σ : Type} {f : Nat} {st : St σ} {d : Direct σ} {b : Bool} (A : Agree f st d b) :
    Agree f st d (b || false) := by simpa using A

/-- A call that passes on its arguments. -/
theorem pass_agree {σ : Type} (U : Under σ) {f : Nat} {st : St σ} {d : Direct σ} {b : Bool} (A : Agree f st d b) {c : Call} {l : Loc} :
    pass U st c l = .ok ({ st with below := (U.step d.below c).1 }, ⟨(U.step d.below c).2, l⟩) := by
  simp only [pass, A.below]

theorem add_agree {σ : Type} {f : Nat} {st : St σ} {d : Direct σ} {b : Bool} (A : Agree f st d b) (s : σ) (r : Ret) (g : Typ → Cls)
    (q : Bool) (hg : ∀ t, decide (g t = Cls.dset) = q) :
    Agree f (st.add s r g) ⟨s, match r with | .obj o t => (o, t, q) :: d.opened | _ => d.opened⟩ b := by
  cases r <;> simp only [St.add]
  all_goals try exact A.set s
  refine ⟨rfl, A.file, ?_, A.none⟩
  simp only [List.map_cons, hg, A.handles]

theorem filter_map (o : Nat) : ∀ l : List (Nat × Cls × Typ),
    (l.filter (fun h => h.1 != o)).map (fun h => (h.1, h.2.2, decide (h.2.1 = Cls.dset))) =
      (l.map (fun h => (h.1, h.2.2, decide (h.2.1 = Cls.dset)))).filter (fun h => h.1 != o)
  | [] => rfl
  | h :: l => by
    have ih := filter_map o l
    by_cases e : h.1 = o
    · simp only [List.filter_cons, List.map_cons, e, bne_self_eq_false, Bool.false_eq_true, if_false]; exact ih
    · have e' : (h.1 != o) = true := by simpa using e
      simp only [List.filter_cons, List.map_cons, e', if_true, ih]

/-- Only the indices of files and datasets are shifted. -/
theorem internal_plain {t : Typ} (h : t.special = false) : internal t = 0 := by
  cases t <;> simp_all [Typ.special, internal]

theorem sub64_zero (n : Nat) : sub64 n 0 = n := by simp [sub64]

theorem map_sub_zero (l : Loc) : l.map (fun k => sub64 k 0) = l := by
  cases l <;> simp [Loc.map, sub64_zero]

theorem lessOrder_plain {t : Typ} (h : t.special = false) (r : Ret) : lessOrder t r = r := by
  cases r <;> simp [lessOrder, internal_plain h, sub32]

theorem lessAttrs_plain {t : Typ} (h : t.special = false) (r : Ret) : lessAttrs t r = r := by
  cases r <;> simp [lessAttrs, internal_plain h, sub64]

theorem indexed_plain {σ : Type} (U : Under σ) (s : σ) {t : Typ} {l : Loc} (ask : Loc → Call) (h : l.isIdx = true → t.special = false)
    (hl : l.fits) (hq : ∀ l, (U.step s (ask l)).1 = s) : indexed U s t l ask = (s, (U.step s (ask l)).2, l) := by
  cases l with
  | self => simp only [indexed, hq]
  | name n => simp only [indexed, hq]
  | idx n dec =>
    have e := internal_plain (h rfl)
    have e1 : add64 n 0 = n := by simp only [add64, Nat.add_zero]; exact Nat.mod_eq_of_lt hl
    simp only [indexed, e, e1, sub64_zero, hq]
    split
    · rename_i h2; simp only [h2]
    · split <;> rfl

theorem of_none {σ : Type} {f : Nat} {st : St σ} {d : Direct σ} {b : Bool} (A : Agree f st d b) {o : Nat} (e : st.of o = none) :
    (d.typ o).isSome = false := by rw [A.isSome, e]; rfl

theorem of_some {σ : Type} {f : Nat} {st : St σ} {d : Direct σ} {b : Bool} (A : Agree f st d b) {o : Nat} {h : Cls × Typ}
    (e : st.of o = some h) : (d.typ o).isSome = true := by rw [A.isSome, e]; rfl

theorem typ_some {σ : Type} {f : Nat} {st : St σ} {d : Direct σ} {b : Bool} (A : Agree f st d b) {o : Nat} {h : Cls × Typ}
    (e : st.of o = some h) : d.typ o = some (h.2, decide (h.1 = Cls.dset)) := by rw [A.typ, e]; rfl

/-- Whether the call is an H5Dopen that fails. -/
def loses {σ : Type} (U : Under σ) (d : Direct σ) (c : Call) : Bool :=
  match c with | .dsetOpen .. => (d.step U c).2.ret == .failed | _ => false

theorem refused {σ : Type} {U : Under σ} {f : Nat} {st : St σ} {d : Direct σ} {b : Bool} (A : Agree f st d b) {c : Call}
    (hc : c.uses.all (fun o => (d.typ o).isSome) = false) (hs : st.step U c = .ok (st, ⟨.failed, c.loc⟩)) :
    ∃ st', st.step U c = .ok (st', (d.step U c).2) ∧ Agree f st' (d.step U c).1 (b || loses U d c) := by
  have e : d.step U c = (d, ⟨.failed, c.loc⟩) := by simp only [Direct.step, hc, Bool.false_eq_true, if_false]
  refine ⟨st, by rw [hs, e], ?_⟩
  rw [e]
  exact ⟨A.below, A.file, A.handles, fun h => A.none (by simp only [Bool.or_eq_false_iff] at h; exact h.1)⟩

theorem Agree.more {σ : Type} {f : Nat} {st : St σ} {d : Direct σ} {b : Bool} (A : Agree f st d b) (q : Bool) :
    Agree f st d (b || q) :=
  ⟨A.below, A.file, A.handles, fun h => A.none (by simp only [Bool.or_eq_false_iff] at h; exact h.1)⟩

/-- What a direct call does that opens and closes nothing. -/
theorem direct_pass {σ : Type} (U : Under σ) (d : Direct σ) {c : Call} (hu : c.uses.all (fun o => (d.typ o).isSome) = true)
    (hc : ∀ o, c ≠ .close o) (ho : c.opens = false) :
    d.step U c = (⟨(U.step d.below c).1, d.opened⟩, ⟨(U.step d.below c).2, c.loc⟩) := by
  simp only [Direct.step, hu, if_true]
  cases c <;> simp_all [Call.opens] <;> split <;> simp_all

/-- What a direct call does that opens an object. -/
theorem direct_open {σ : Type} (U : Under σ) (d : Direct σ) {c : Call} (hu : c.uses.all (fun o => (d.typ o).isSome) = true)
    (ho : c.opens = true) :
    d.step U c = (⟨(U.step d.below c).1, match (U.step d.below c).2 with
      | .obj o t => (o, t, c.onDset) :: d.opened
      | _ => d.opened⟩, ⟨(U.step d.below c).2, c.loc⟩) := by
  simp only [Direct.step, hu, if_true]
  cases c <;> simp_all [Call.opens] <;> split <;> simp_all

theorem imp_or {α : Type} {p q : Option α} (h : p.isSome = true → q = none) : p = none ∨ q = none := by
  cases p with
  | none => exact .inl rfl
  | some => exact .inr (h rfl)

theorem step_agree {σ : Type} (U : Under σ) (hq : U.Quiet) {f : Nat} {st : St σ} {d : Direct σ} {b : Bool} (A : Agree f st d b)
    {c : Call} (hh : c.Harmless U f d b) :
    ∃ st', st.step U c = .ok (st', (d.step U c).2) ∧ Agree f st' (d.step U c).1 (b || loses U d c) := by
  cases c with
  | plain cb o l x =>
    cases e : st.of o with
    | none => exact refused A (by simp only [Call.uses, List.all_cons, of_none A e, Bool.false_and]) (by simp [St.step, e, Call.loc])
    | some h' =>
      have hu : (Call.plain cb o l x).uses.all (fun o => (d.typ o).isSome) = true := by simp only [Call.uses, List.all_cons, of_some A e, List.all_nil, Bool.and_self]
      rw [direct_pass U d hu (by intro o; simp) rfl]
      exact ⟨_, by simp [St.step, e, pass_agree U A, Call.loc] <;> rfl, (A.set _).more _⟩
  | attrCreate o l n x =>
    cases e : st.of o with
    | none => exact refused A (by simp only [Call.uses, List.all_cons, of_none A e, Bool.false_and]) (by simp [St.step, e, Call.loc])
    | some h' =>
      have hu : (Call.attrCreate o l n x).uses.all (fun o => (d.typ o).isSome) = true := by simp only [Call.uses, List.all_cons, of_some A e, List.all_nil, Bool.and_self]
      rw [direct_open U d hu rfl]
      exact ⟨_, by simp [St.step, e, wrap, Call.loc, A.below] <;> rfl, ((add_agree A _ _ _ _ (fun _ => rfl)).more _)⟩
  | groupCreate o l n x =>
    cases e : st.of o with
    | none => exact refused A (by simp only [Call.uses, List.all_cons, of_none A e, Bool.false_and]) (by simp [St.step, e, Call.loc])
    | some h' =>
      have hu : (Call.groupCreate o l n x).uses.all (fun o => (d.typ o).isSome) = true := by simp only [Call.uses, List.all_cons, of_some A e, List.all_nil, Bool.and_self]
      rw [direct_open U d hu rfl]
      exact ⟨_, by simp [St.step, e, wrap, Call.loc, A.below] <;> rfl, ((add_agree A _ _ _ _ (fun _ => rfl)).more _)⟩
  | groupOpen o l n =>
    cases e : st.of o with
    | none => exact refused A (by simp only [Call.uses, List.all_cons, of_none A e, Bool.false_and]) (by simp [St.step, e, Call.loc])
    | some h' =>
      have hu : (Call.groupOpen o l n).uses.all (fun o => (d.typ o).isSome) = true := by simp only [Call.uses, List.all_cons, of_some A e, List.all_nil, Bool.and_self]
      rw [direct_open U d hu rfl]
      exact ⟨_, by simp [St.step, e, wrap, Call.loc, A.below] <;> rfl, ((add_agree A _ _ _ _ (fun _ => rfl)).more _)⟩
  | typeCommit o l n x =>
    cases e : st.of o with
    | none => exact refused A (by simp only [Call.uses, List.all_cons, of_none A e, Bool.false_and]) (by simp [St.step, e, Call.loc])
    | some h' =>
      have hu : (Call.typeCommit o l n x).uses.all (fun o => (d.typ o).isSome) = true := by simp only [Call.uses, List.all_cons, of_some A e, List.all_nil, Bool.and_self]
      rw [direct_open U d hu rfl]
      exact ⟨_, by simp [St.step, e, wrap, Call.loc, A.below] <;> rfl, ((add_agree A _ _ _ _ (fun _ => rfl)).more _)⟩
  | typeOpen o l n =>
    cases e : st.of o with
    | none => exact refused A (by simp only [Call.uses, List.all_cons, of_none A e, Bool.false_and]) (by simp [St.step, e, Call.loc])
    | some h' =>
      have hu : (Call.typeOpen o l n).uses.all (fun o => (d.typ o).isSome) = true := by simp only [Call.uses, List.all_cons, of_some A e, List.all_nil, Bool.and_self]
      rw [direct_open U d hu rfl]
      exact ⟨_, by simp [St.step, e, wrap, Call.loc, A.below] <;> rfl, ((add_agree A _ _ _ _ (fun _ => rfl)).more _)⟩
  | objOpen o l =>
    cases e : st.of o with
    | none => exact refused A (by simp only [Call.uses, List.all_cons, of_none A e, Bool.false_and]) (by simp [St.step, e, Call.loc])
    | some h' =>
      have hu : (Call.objOpen o l).uses.all (fun o => (d.typ o).isSome) = true := by simp only [Call.uses, List.all_cons, of_some A e, List.all_nil, Bool.and_self]
      rw [direct_open U d hu rfl]
      exact ⟨_, by simp [St.step, e, wrap, Call.loc, A.below] <;> rfl, ((add_agree A _ _ _ _ (fun _ => rfl)).more _)⟩
  | dsetCreate o l n v x =>
    cases e : st.of o with
    | none => exact refused A (by simp only [Call.uses, List.all_cons, of_none A e, Bool.false_and]) (by simp [St.step, e, Call.loc])
    | some h' =>
      have hv : v = false := hh
      subst hv
      have hu : (Call.dsetCreate o l n false x).uses.all (fun o => (d.typ o).isSome) = true := by simp only [Call.uses, List.all_cons, of_some A e, List.all_nil, Bool.and_self]
      rw [direct_open U d hu rfl]
      exact ⟨_, by simp [St.step, e, wrap, Call.loc, A.below] <;> rfl, ((add_agree A _ _ _ _ (fun _ => rfl)).more _)⟩
  | dsetOpen o l n =>
    cases e : st.of o with
    | none => exact refused A (by simp only [Call.uses, List.all_cons, of_none A e, Bool.false_and]) (by simp [St.step, e, Call.loc])
    | some h' =>
      have hu : (Call.dsetOpen o l n).uses.all (fun o => (d.typ o).isSome) = true := by simp only [Call.uses, List.all_cons, of_some A e, List.all_nil, Bool.and_self]
      have hd := direct_open U d hu rfl
      by_cases hf : (U.step d.below (.dsetOpen o l n)).2 = .failed
      · have hl : loses U d (.dsetOpen o l n) = true := by simp only [loses, hd, hf]; rfl
        rw [hl, hd]
        refine ⟨_, by simp [St.step, e, Call.loc, A.below, hf] <;> rfl, ?_⟩
        simp only [hf]
        exact ⟨rfl, A.file, A.handles, fun h => by simp at h⟩
      · rw [hd]
        exact ⟨_, by simp [St.step, e, Call.loc, A.below, hf] <;> rfl, ((add_agree A _ _ _ _ (fun _ => rfl)).more _)⟩
  | attrOpen o l n =>
    cases e : st.of o with
    | none => exact refused A (by simp only [Call.uses, List.all_cons, of_none A e, Bool.false_and]) (by simp [St.step, e, Call.loc])
    | some h' =>
      have hu : (Call.attrOpen o l n).uses.all (fun o => (d.typ o).isSome) = true := by simp only [Call.uses, List.all_cons, of_some A e, List.all_nil, Bool.and_self]
      have hm : l.map (fun k => sub64 k (internal h'.2)) = l := by
        by_cases hi : l.isIdx = true
        · rw [internal_plain (hh hi _ (typ_some A e))]; exact map_sub_zero l
        · cases l <;> simp_all [Loc.map, Loc.isIdx]
      have hd := direct_open U d hu rfl
      rw [hd]
      by_cases hf : (U.step d.below (.attrOpen o l n)).2 = .failed
      · refine ⟨_, by simp [St.step, e, Call.loc, A.below, hf] <;> rfl, ?_⟩
        simp only [hf]
        exact (A.set _).more _
      · exact ⟨_, by simp [St.step, e, Call.loc, A.below, hf, hm] <;> rfl, ((add_agree A _ _ _ _ (fun _ => rfl)).more _)⟩
  | attrInfo o l =>
    cases e : st.of o with
    | none => exact refused A (by simp only [Call.uses, List.all_cons, of_none A e, Bool.false_and]) (by simp [St.step, e, Call.loc])
    | some h' =>
      have hu : (Call.attrInfo o l).uses.all (fun o => (d.typ o).isSome) = true := by simp only [Call.uses, List.all_cons, of_some A e, List.all_nil, Bool.and_self]
      have ht := hh.2 _ (typ_some A e)
      have hi := indexed_plain U d.below (t := h'.2) (l := l) (fun l => .attrInfo o l) (fun _ => ht) hh.1 (fun l => (hq _ _ _).1)
      rw [direct_pass U d hu (by intro o; simp) rfl, (hq _ _ _).1]
      exact ⟨_, by simp only [St.step, e, A.below, hi, lessOrder_plain ht, Call.loc] <;> rfl, (A.set _).more _⟩
  | attrName o l =>
    cases e : st.of o with
    | none => exact refused A (by simp only [Call.uses, List.all_cons, of_none A e, Bool.false_and]) (by simp [St.step, e, Call.loc])
    | some h' =>
      have hu : (Call.attrName o l).uses.all (fun o => (d.typ o).isSome) = true := by simp only [Call.uses, List.all_cons, of_some A e, List.all_nil, Bool.and_self]
      have hi := indexed_plain U d.below (t := h'.2) (l := l) (fun l => .attrName o l) (fun h => hh.2 h _ (typ_some A e)) hh.1 (fun l => (hq _ _ _).2)
      rw [direct_pass U d hu (by intro o; simp) rfl, (hq _ _ _).2]
      exact ⟨_, by simp only [St.step, e, A.below, hi, Call.loc] <;> rfl, (A.set _).more _⟩
  | objInfo o l =>
    cases e : st.of o with
    | none => exact refused A (by simp only [Call.uses, List.all_cons, of_none A e, Bool.false_and]) (by simp [St.step, e, Call.loc])
    | some h' =>
      have hu : (Call.objInfo o l).uses.all (fun o => (d.typ o).isSome) = true := by simp only [Call.uses, List.all_cons, of_some A e, List.all_nil, Bool.and_self]
      rw [direct_pass U d hu (by intro o; simp) rfl]
      exact ⟨_, by simp only [St.step, e, A.below, lessAttrs_plain (hh _ (typ_some A e)), Call.loc] <;> rfl, (A.set _).more _⟩
  | linkCopy a1 a2 l1 l2 x =>
    by_cases hu : (Call.linkCopy a1 a2 l1 l2 x).uses.all (fun o => (d.typ o).isSome) = true
    · have hn : (a1.any (fun o => (st.of o).isNone) || a2.any (fun o => (st.of o).isNone)) = false := by
        cases a1 <;> cases a2 <;> simp_all [Call.uses, A.isSome]
      rw [direct_pass U d hu (by intro o; simp) rfl]
      exact ⟨_, by simp only [St.step, hn, pass_agree U A, Call.loc] <;> rfl, (A.set _).more _⟩
    · have hn : (a1.any (fun o => (st.of o).isNone) || a2.any (fun o => (st.of o).isNone)) = true := by
        cases a1 <;> cases a2 <;> simp_all [Call.uses, A.isSome] <;> exact imp_or hu
      exact refused A (by simpa using hu) (by simp only [St.step, hn, Call.loc]; rfl)
  | linkMove a1 a2 l1 l2 x =>
    by_cases hu : (Call.linkMove a1 a2 l1 l2 x).uses.all (fun o => (d.typ o).isSome) = true
    · have hn : (a1.any (fun o => (st.of o).isNone) || a2.any (fun o => (st.of o).isNone)) = false := by
        cases a1 <;> cases a2 <;> simp_all [Call.uses, A.isSome]
      have hb : (a1.isNone || a2.isNone) = false := by
        have h1 := hh.1; have h2 := hh.2; cases a1 <;> cases a2 <;> simp_all
      rw [direct_pass U d hu (by intro o; simp) rfl]
      exact ⟨_, by simp only [St.step, hn, hb, pass_agree U A, Call.loc] <;> rfl, (A.set _).more _⟩
    · have hn : (a1.any (fun o => (st.of o).isNone) || a2.any (fun o => (st.of o).isNone)) = true := by
        cases a1 <;> cases a2 <;> simp_all [Call.uses, A.isSome] <;> exact imp_or hu
      exact refused A (by simpa using hu) (by simp only [St.step, hn, Call.loc]; rfl)
  | objCopy a1 a2 l1 l2 x =>
    by_cases hu : (Call.objCopy a1 a2 l1 l2 x).uses.all (fun o => (d.typ o).isSome) = true
    · have hn : ((st.of a1).isNone || (st.of a2).isNone) = false := by
        simp_all [Call.uses, A.isSome]
      rw [direct_pass U d hu (by intro o; simp) rfl]
      exact ⟨_, by simp only [St.step, hn, pass_agree U A, Call.loc] <;> rfl, (A.set _).more _⟩
    · have hn : ((st.of a1).isNone || (st.of a2).isNone) = true := by
        simp_all [Call.uses, A.isSome]; exact imp_or hu
      exact refused A (by simpa using hu) (by simp only [St.step, hn, Call.loc]; rfl)
  | mount a1 a2 n x =>
    have hn : ((st.of a1).isNone || (st.of a2).isNone) = true := by
      have h1 := A.isSome a1
      have h2 := A.isSome a2
      rcases hh with h0 | h0
      · simp_all
      · simp_all
    exact refused A (by rcases hh with h0 | h0 <;> simp [Call.uses, h0]) (by simp only [St.step, hn, Call.loc]; rfl)
  | fileAccess o =>
    have h0 : d.typ o = none := hh
    exact refused A (by simp [Call.uses, h0]) (by simp [St.step, Call.loc])
  | close o =>
    cases e : st.of o with
    | none => exact refused A (by simp only [Call.uses, List.all_cons, of_none A e, Bool.false_and]) (by simp [St.step, e, Call.loc])
    | some h' =>
      obtain ⟨h1, h2, h3⟩ := hh _ (typ_some A e)
      dsimp only at h1 h2 h3
      have hu : (Call.close o).uses.all (fun o => (d.typ o).isSome) = true := by simp only [Call.uses, List.all_cons, of_some A e, List.all_nil, Bool.and_self]
      by_cases ht : h'.2 = .file
      · obtain ⟨rfl, hb, hlen, hr⟩ := h2 ht
        have hd : d.step U (.close o) = (⟨(U.step d.below (.close o)).1, d.opened.filter (fun h => h.1 != o)⟩, ⟨.done 0, .self⟩) := by
          simp only [Direct.step, hu, if_true, hr, Call.loc]
        have hz : ({ st with below := st.below, handles := st.handles.filter (fun h => h.1 != o) } : St σ).refs = 0 := by
          have hl1 : st.handles.length = 1 := by rw [← A.handles, List.length_map] at hlen; exact hlen
          have hm : (st.handles.find? (fun h => h.1 == o)).isSome = true := by
            simp only [St.of, Option.map_eq_some_iff] at e
            obtain ⟨a, ha, -⟩ := e
            rw [ha]; rfl
          simp only [St.refs, A.none hb]
          cases hh : st.handles with
          | nil => rfl
          | cons a t =>
            rw [hh] at hl1 hm
            have : t = [] := by cases t with | nil => rfl | cons => simp at hl1
            subst this
            by_cases ea : a.1 = o
            · simp [ea]
            · simp [ea] at hm
        rw [hd]
        refine ⟨_, by simp only [St.step, e, ht, if_true] <;> rfl, ?_⟩
        simp only [St.drop, hz, if_true]
        refine ⟨by simp only [A.file, A.below], A.file, ?_, fun h => A.none (by simp only [Bool.or_eq_false_iff] at h; exact h.1)⟩
        rw [filter_map, A.handles]
      · by_cases hf : (U.step d.below (.close o)).2 = .failed
        · have hd : d.step U (.close o) = (⟨(U.step d.below (.close o)).1, d.opened⟩, ⟨.failed, .self⟩) := by
            simp only [Direct.step, hu, if_true, hf, Call.loc]
          rw [hd]
          exact ⟨_, by simp only [St.step, e, ht, if_false, A.below, hf, if_true] <;> rfl, (A.set _).more _⟩
        · have hd : d.step U (.close o) = (⟨(U.step d.below (.close o)).1, d.opened.filter (fun h => h.1 != o)⟩, ⟨(U.step d.below (.close o)).2, .self⟩) := by
            simp only [Direct.step, hu, if_true, Call.loc]
          have hc : ¬ (h'.2 = .dataset ∧ h'.1 ≠ .dset) := by
            rintro ⟨ha, hb⟩
            exact hb (by simpa using h1 ha)
          have hn : ¬ ({ st with below := (U.step d.below (.close o)).1, handles := st.handles.filter (fun h => h.1 != o) } : St σ).refs = 0 := by
            have h4 := h3 ht
            rw [← A.handles, List.any_eq_true] at h4
            obtain ⟨x, hx, hne⟩ := h4
            obtain ⟨y, hy, rfl⟩ := List.mem_map.1 hx
            have : 0 < (st.handles.filter (fun h => h.1 != o)).length :=
              List.length_pos_of_mem (List.mem_filter.2 ⟨hy, hne⟩)
            simp only [St.refs]
            omega
          rw [hd]
          refine ⟨_, by simp only [St.step, e, ht, if_false, A.below, hf, hc] <;> rfl, ?_⟩
          simp only [St.drop, hn, if_false]
          refine ⟨rfl, A.file, ?_, fun h => A.none (by simp only [Bool.or_eq_false_iff] at h; exact h.1)⟩
          rw [filter_map, A.handles]

theorem run_agree {σ : Type} (U : Under σ) (hq : U.Quiet) {f : Nat} : ∀ (cs : List Call) (st : St σ) (d : Direct σ) (b : Bool),
    Agree f st d b → Harmless U f d b cs → ∃ st', st.run U cs = .ok (st', (d.run U cs).2) ∧ st'.below = (d.run U cs).1.below
  | [], st, d, b, A, _ => ⟨st, rfl, A.below⟩
  | c :: cs, st, d, b, A, h => by
    obtain ⟨st1, h1, A1⟩ := step_agree U hq A h.1
    obtain ⟨st2, h2, hb⟩ := run_agree U hq cs st1 (d.step U c).1 _ A1 h.2
    exact ⟨st2, by simp only [St.run, h1, Direct.run, Res.ok_bind, h2] <;> rfl, hb⟩

end Verif.Plain
