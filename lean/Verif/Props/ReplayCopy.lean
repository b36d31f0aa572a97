import Verif.Spec.ReplayCopy
import Verif.Lemmas.Pairs
import Mathlib.Data.List.Nodup

/-
C54: h5lreplay reproduces the objects and attributes of the file under the names given by the user.
-/

namespace Verif.Props

open Spec (userName userPath userAttrs userObj userFile FileWF)

/-- Files for which the names cause no trouble: objects of the user have no name that begins with an underscore and are not
below a top-level name that begins with a dot; no attribute begins with a dot or a slash; attributes of named types do not
begin with an underscore; all datasets have a fixed size; every object has one link. -/
structure Plain (f : NFile) : Prop where
  names : ∀ e ∈ f.objs, (∃ c, e.path.head? = some c ∧ userName c = none) ∨
    ((∀ c ∈ e.path, c.head? ≠ some '_') ∧ ∀ c, e.path.head? = some c → c.head? ≠ some '.')
  root : ∀ a ∈ f.root, a.1.head? ≠ some '.' ∧ a.1.head? ≠ some '/'
  attrs : ∀ e ∈ f.objs, ∀ a ∈ e.attrs, a.1.head? ≠ some '.' ∧ a.1.head? ≠ some '/'
  other : ∀ e ∈ f.objs, ∀ t, e.kind = .other t → ∀ a ∈ e.attrs, a.1.head? ≠ some '_'
  dims : ∀ e ∈ f.objs, ∀ i d m t, e.kind = .dset i d m t → m = d.map some
  links : f.links = []

theorem visitName_user {n : Name} (h1 : n.head? ≠ some '.') (h2 : n.head? ≠ some '/') : visitName n = userName n := by
  unfold visitName userName
  match n with
  | [] => simp
  | ['_'] => simp
  | '_' :: c :: r =>
    by_cases hc : c = '_'
    · subst hc; simp
    · simp [hc]
  | c :: r =>
    by_cases hc : c = '_'
    · subst hc
      cases r with
      | nil => simp
      | cons d r =>
        by_cases hd : d = '_'
        · subst hd; simp
        · simp [hd]
    · simp only [List.head?_cons, ne_eq, Option.some.injEq] at h1 h2
      simp [hc, h1, h2]

theorem userName_plain {n : Name} (h : n.head? ≠ some '_') : userName n = some n := by
  unfold userName
  split
  · simp at h
  · simp at h
  · rfl

theorem userName_inj {a b c : Name} (h1 : userName a = some c) (h2 : userName b = some c) : a = b := by
  unfold userName at h1 h2
  split at h1 <;> split at h2
  · simp_all
  · simp at h2
  · rename_i x
    simp only [Option.some.injEq] at h1 h2
    subst h2
    exact absurd h1.symm (x _)
  · simp at h1
  · simp at h1
  · simp at h1
  · rename_i x _ _
    simp only [Option.some.injEq] at h1 h2
    subst h1
    exact absurd h2.symm (x _)
  · simp at h2
  · simp_all

theorem copyAttrs_user : ∀ (l acc : Attrs), (l.map Prod.fst).Nodup →
    (∀ a ∈ l, a.1.head? ≠ some '.' ∧ a.1.head? ≠ some '/') →
    (∀ a ∈ l, ∀ n, userName a.1 = some n → ∀ b ∈ acc, b.1 ≠ n) →
    copyAttrs l acc = .ok (acc ++ userAttrs l)
  | [], acc, _, _, _ => by simp [copyAttrs, userAttrs]
  | (n, v) :: r, acc, hn, hp, ha => by
    simp only [List.map_cons, List.nodup_cons] at hn
    have hv := visitName_user (hp (n, v) (by simp)).1 (hp (n, v) (by simp)).2
    unfold copyAttrs
    simp only at hv
    rw [hv]
    cases hu : userName n with
    | none =>
      simp only
      rw [copyAttrs_user r acc hn.2 (fun a h => hp a (by simp [h])) (fun a h => ha a (by simp [h]))]
      simp [userAttrs, hu]
    | some m =>
      simp only
      have hf : acc.any (fun a => decide (a.1 = m)) = false := by
        rw [List.any_eq_false]
        intro b hb
        simpa using ha (n, v) (by simp) m hu b hb
      rw [hf]
      simp only [Bool.false_eq_true, if_false]
      rw [copyAttrs_user r (acc ++ [(m, v)]) hn.2 (fun a h => hp a (by simp [h]))]
      · simp [userAttrs, hu]
      · intro a h k hk b hb
        rw [List.mem_append, List.mem_singleton] at hb
        rcases hb with hb | rfl
        · exact ha a (by simp [h]) k hk b hb
        · rintro rfl
          have := userName_inj hu hk
          exact hn.1 (by rw [this]; exact List.mem_map_of_mem h)

theorem findEnt_mem {l : List OEnt} (hn : (l.map OEnt.path).Nodup) {e : OEnt} (he : e ∈ l) :
    findEnt l e.path = some e := by
  unfold findEnt
  induction l with
  | nil => simp at he
  | cons x l ih =>
    simp only [List.map_cons, List.nodup_cons] at hn
    rcases List.mem_cons.mp he with rfl | he
    · simp
    · have : x.path ≠ e.path := fun h => hn.1 (by rw [h]; exact List.mem_map_of_mem he)
      rw [List.find?_cons_of_neg (by simpa using this)]
      exact ih hn.2 he

theorem findEnt_none {l : List OEnt} {p : Path} (h : ∀ e ∈ l, e.path ≠ p) : findEnt l p = none := by
  unfold findEnt
  rw [List.find?_eq_none]
  intro x hx
  simpa using h x hx

theorem userPath_plain {p : Path} (h : ∀ c ∈ p, c.head? ≠ some '_') : userPath p = some p := by
  unfold userPath
  induction p with
  | nil => rfl
  | cons c p ih =>
    rw [List.mapM_cons, userName_plain (h c (by simp)), ih (fun x hx => h x (by simp [hx]))]
    rfl

theorem userPath_hidden {p : Path} {c : Name} (h1 : p.head? = some c) (h2 : userName c = none) : userPath p = none := by
  unfold userPath
  cases p with
  | nil => simp at h1
  | cons d p =>
    simp only [List.head?_cons, Option.some.injEq] at h1
    subst h1
    rw [List.mapM_cons, h2]
    rfl

theorem visitPath_hidden {p : Path} {c : Name} (h1 : p.head? = some c) (h2 : userName c = none) : visitPath p = none := by
  cases p with
  | nil => rfl
  | cons d p =>
    simp only [List.head?_cons, Option.some.injEq] at h1
    subst h1
    have h3 : d.head? = some '_' := by
      by_contra h
      rw [userName_plain h] at h2
      simp at h2
    simp only [visitPath]
    rw [visitName_user (by rw [h3]; simp) (by rw [h3]; simp), h2]
    rfl

theorem userAttrs_plain {a : Attrs} (h : ∀ x ∈ a, x.1.head? ≠ some '_') : userAttrs a = a := by
  unfold userAttrs
  induction a with
  | nil => rfl
  | cons x a ih =>
    rw [List.filterMap_cons, userName_plain (h x (by simp)), ih (fun y hy => h y (by simp [hy]))]
    rfl

/-- The output after a part of the visit. -/
structure Copied (f : NFile) (n : Nat) (pre : List OEnt) (st : CopySt) : Prop where
  out : st.out = ⟨userAttrs f.root, pre.filterMap userObj, []⟩
  len : st.dsets.length = n
  tab : ∀ e ∈ pre, ∀ i d m t p, e.kind = .dset i d m t → userPath e.path = some p → st.dsets[i]? = some (some p)

theorem mem_userObj {pre : List OEnt} {x : OEnt} (h : x ∈ pre.filterMap userObj) :
    ∃ e ∈ pre, userPath e.path = some x.path ∧ x.kind = e.kind ∧ x.attrs = userAttrs e.attrs := by
  rw [List.mem_filterMap] at h
  obtain ⟨e, he, h⟩ := h
  unfold userObj at h
  rw [Option.map_eq_some_iff] at h
  obtain ⟨p, h1, rfl⟩ := h
  exact ⟨e, he, h1, rfl, rfl⟩

/-- Objects of the user keep their paths. -/
theorem plain_path {f : NFile} (hp : Plain f) {e : OEnt} (he : e ∈ f.objs) {p : Path} (h : userPath e.path = some p) :
    p = e.path ∧ (∀ c ∈ e.path, c.head? ≠ some '_') := by
  rcases hp.names e he with ⟨c, h1, h2⟩ | ⟨h1, _⟩
  · rw [userPath_hidden h1 h2] at h
    simp at h
  · rw [userPath_plain h1] at h
    simp only [Option.some.injEq] at h
    exact ⟨h.symm, h1⟩

/-- Everything above an object is a group. -/
theorem above_group {f : NFile} {n : Nat} (hw : FileWF f n) (p : Path) (hp : p ≠ []) (k : Nat) :
    ∀ x ∈ f.objs, p <+: x.path → x.path.length = p.length + (k + 1) → ∃ g ∈ f.objs, g.path = p ∧ g.kind = .group := by
  induction k with
  | zero =>
    intro x hx h hl
    obtain ⟨pre, post, hf⟩ := List.append_of_mem hx
    have hd : x.path.dropLast = p := by
      obtain ⟨t, ht⟩ := h
      rw [← ht, List.length_append] at hl
      obtain ⟨c, rfl⟩ := List.length_eq_one_iff.mp (show t.length = 1 by omega)
      rw [← ht, List.dropLast_concat]
    obtain ⟨g, g1, g2, g3⟩ := hw.parent pre x post hf (by rw [hd]; exact hp)
    exact ⟨g, by rw [hf]; simp [g1], g2.trans hd, g3⟩
  | succ k ih =>
    intro x hx h hl
    obtain ⟨pre, post, hf⟩ := List.append_of_mem hx
    obtain ⟨t, ht⟩ := h
    have htl : t ≠ [] := by
      rintro rfl
      rw [← ht, List.append_nil] at hl
      omega
    have hd : x.path.dropLast = p ++ t.dropLast := by
      rw [← ht, List.dropLast_append_of_ne_nil htl]
    have hdl : x.path.dropLast.length = p.length + (k + 1) := by
      rw [List.length_dropLast]
      omega
    obtain ⟨g, g1, g2, g3⟩ := hw.parent pre x post hf (by
      intro h0
      rw [h0] at hdl
      simp at hdl)
    exact ih g (by rw [hf]; simp [g1]) (by rw [g2, hd]; exact List.prefix_append _ _) (by rw [g2, hdl])

theorem copyObj_user {f : NFile} {n : Nat} (hw : FileWF f n) (hp : Plain f) {pre post : List OEnt} {e : OEnt}
    (hf : f.objs = pre ++ e :: post) {st : CopySt} (hc : Copied f n pre st) :
    ∃ st', copyObj f st e = .ok st' ∧ Copied f n (pre ++ [e]) st' := by
  have hin : ∀ x ∈ pre, x ∈ f.objs := fun x hx => by rw [hf]; simp [hx]
  have he : e ∈ f.objs := by rw [hf]; simp
  rcases hp.names e he with ⟨c, h1, h2⟩ | ⟨h1, h2⟩
  · refine ⟨st, by unfold copyObj; rw [visitPath_hidden h1 h2], ?_, hc.len, ?_⟩
    · rw [hc.out, List.filterMap_append]
      have : userObj e = none := by unfold userObj; rw [userPath_hidden h1 h2]; rfl
      simp [this]
    · intro x hx i d m t p hk hu
      rw [List.mem_append, List.mem_singleton] at hx
      rcases hx with hx | rfl
      · exact hc.tab x hx i d m t p hk hu
      · rw [userPath_hidden h1 h2] at hu
        simp at hu
  · -- an object of the user
    have hup := userPath_plain h1
    have hvp : visitPath e.path = some e.path := by
      obtain ⟨q1, q2⟩ := hw.nonempty e he
      cases hpath : e.path with
      | nil => exact absurd hpath q1
      | cons c cs =>
        rw [hpath] at h1 h2 q2
        simp only [visitPath]
        have hsl : c.head? ≠ some '/' := by
          intro hh
          exact (q2 c (by simp)).2 (List.mem_of_head? hh)
        rw [visitName_user (h2 c rfl) hsl, userName_plain (h1 c (by simp))]
        rfl
    have hfind := findEnt_mem hw.nodup he
    have hnd := hw.nodup
    rw [hf, List.map_append, List.map_cons, List.nodup_append] at hnd
    have hfree : findEnt st.out.objs e.path = none := by
      apply findEnt_none
      intro x hx
      rw [hc.out] at hx
      obtain ⟨y, hy, hy1, _⟩ := mem_userObj hx
      rw [(plain_path hp (hin y hy) hy1).1]
      exact hnd.2.2 _ (List.mem_map_of_mem hy) _ (by simp)
    have hcreate : mayCreate st.out.objs e.path = true := by
      unfold mayCreate
      rw [hfree]
      simp only [Option.isNone_none, Bool.true_and, Bool.or_eq_true, List.isEmpty_iff]
      by_cases hd : e.path.dropLast = []
      · exact Or.inl hd
      · right
        obtain ⟨g, g1, g2, g3⟩ := hw.parent pre e post hf hd
        have hgp : userPath g.path = some g.path := by
          rw [g2]
          exact userPath_plain (fun c hc => h1 c ((List.dropLast_sublist _).subset hc))
        have hmem : (⟨g.path, g.kind, userAttrs g.attrs⟩ : OEnt) ∈ pre.filterMap userObj := by
          rw [List.mem_filterMap]
          exact ⟨g, g1, by unfold userObj; rw [hgp]; rfl⟩
        have hnd2 : ((pre.filterMap userObj).map OEnt.path).Nodup := by
          have hs : ((pre.filterMap userObj).map OEnt.path).Sublist (pre.map OEnt.path) := by
            clear hfree hmem hc hf hnd g1
            induction pre with
            | nil => simp
            | cons x l ih =>
              have ih := ih (fun y hy => hin y (by simp [hy]))
              rw [List.filterMap_cons]
              cases hx : userObj x with
              | none => exact ih.cons _
              | some y =>
                simp only [List.map_cons]
                unfold userObj at hx
                rw [Option.map_eq_some_iff] at hx
                obtain ⟨p, hx1, rfl⟩ := hx
                rw [(plain_path hp (hin x (by simp)) hx1).1]
                exact ih.cons_cons _
          exact hnd.1.sublist hs
        have := findEnt_mem hnd2 hmem
        simp only at this
        rw [hc.out, ← g2, this]
        simpa using g3
    have hatt := copyAttrs_user e.attrs [] (hw.attrs e he) (hp.attrs e he) (by simp)
    rw [List.nil_append] at hatt
    have hobj : userObj e = some ⟨e.path, e.kind, userAttrs e.attrs⟩ := by unfold userObj; rw [hup]; rfl
    obtain ⟨path, kind, attrs⟩ := e
    simp only at *
    cases kind with
    | group =>
      refine ⟨{ st with out := { st.out with objs := st.out.objs ++ [⟨path, .group, userAttrs attrs⟩] } },
        by unfold copyObj; simp only [hvp, hfind, hcreate, if_true, hatt, Res.bind], ?_, hc.len, ?_⟩
      · simp only [hc.out, List.filterMap_append]
        simp [hobj]
      · intro x hx i d m t p hk hu
        rw [List.mem_append, List.mem_singleton] at hx
        rcases hx with hx | rfl
        · exact hc.tab x hx i d m t p hk hu
        · simp at hk
    | dset id dims mdims ty =>
      have hid := hw.ids _ he id dims mdims ty rfl
      have hm := hp.dims _ he id dims mdims ty rfl
      subst hm
      have hlt : id < st.dsets.length := by rw [hc.len]; exact hid
      refine ⟨⟨{ st.out with objs := st.out.objs ++ [⟨path, .dset id dims (dims.map some) ty, userAttrs attrs⟩] },
        st.dsets.set id (some path)⟩, by unfold copyObj; simp only [hvp, hfind, hcreate, if_true, hlt, hatt, Res.bind], ?_, ?_, ?_⟩
      · simp only [hc.out, List.filterMap_append]
        simp [hobj]
      · simp [hc.len]
      · intro x hx i d m t p hk hu
        rw [List.mem_append, List.mem_singleton] at hx
        simp only
        rcases hx with hx | rfl
        · have hne : i ≠ id := by
            have := hw.ids2
            rw [hf, List.pairwise_append] at this
            exact this.2.2 x hx _ List.mem_cons_self i d m t id dims _ ty hk rfl
          rw [List.getElem?_set_ne (Ne.symm hne)]
          exact hc.tab x hx i d m t p hk hu
        · simp only [OKind.dset.injEq] at hk
          obtain ⟨rfl, _⟩ := hk
          rw [hup] at hu
          simp only [Option.some.injEq] at hu
          rw [List.getElem?_set_self hlt, hu]
    | other ty =>
      have ho := userAttrs_plain (hp.other _ he ty rfl)
      simp only at ho
      have hsub : f.objs.filter (fun x => path.isPrefixOf x.path) = [⟨path, .other ty, attrs⟩] := by
        have hone : ∀ x ∈ f.objs, path.isPrefixOf x.path = true → x.path = path := by
          intro x hx hpre
          rw [List.isPrefixOf_iff_prefix] at hpre
          by_contra hne
          have hlt : path.length < x.path.length := by
            rcases Nat.lt_or_eq_of_le hpre.length_le with h | h
            · exact h
            · exact absurd (hpre.eq_of_length h).symm hne
          obtain ⟨g, g1, g2, g3⟩ := above_group hw path (hw.nonempty _ he).1 (x.path.length - path.length - 1) x hx hpre
            (by omega)
          have := findEnt_mem hw.nodup g1
          rw [g2, hfind] at this
          simp only [Option.some.injEq] at this
          rw [← this] at g3
          simp at g3
        rw [hf, List.filter_append, List.filter_cons_of_pos (by simp)]
        have n1 : pre.filter (fun x => path.isPrefixOf x.path) = [] := by
          rw [List.filter_eq_nil_iff]
          intro x hx hpre
          exact hnd.2.2 _ (List.mem_map_of_mem hx) _ (by simp) (hone x (hin x hx) hpre)
        have n2 : post.filter (fun x => path.isPrefixOf x.path) = [] := by
          rw [List.filter_eq_nil_iff]
          intro x hx hpre
          have h3 := hone x (by rw [hf]; simp [hx]) hpre
          have h4 := (List.nodup_cons.mp hnd.2.1).1
          exact h4 (by rw [← h3]; exact List.mem_map_of_mem hx)
        rw [n1, n2]
        rfl
      refine ⟨{ st with out := { st.out with objs := st.out.objs ++ f.objs.filter (fun x => path.isPrefixOf x.path) } },
        by unfold copyObj; simp only [hvp, hfind, hcreate, if_true], ?_, hc.len, ?_⟩
      · simp only [hc.out, List.filterMap_append, hsub]
        simp [hobj, ho]
      · intro x hx i d m t p hk hu
        rw [List.mem_append, List.mem_singleton] at hx
        rcases hx with hx | rfl
        · exact hc.tab x hx i d m t p hk hu
        · simp at hk

theorem copyObjs_user {f : NFile} {n : Nat} (hw : FileWF f n) (hp : Plain f) :
    ∀ (post pre : List OEnt) (st : CopySt), f.objs = pre ++ post → Copied f n pre st →
      ∃ st', copyObjs f post st = .ok st' ∧ Copied f n f.objs st'
  | [], pre, st, hf, hc => ⟨st, rfl, by rw [hf, List.append_nil]; exact hc⟩
  | e :: post, pre, st, hf, hc => by
    obtain ⟨s1, h1, h2⟩ := copyObj_user hw hp hf hc
    obtain ⟨s2, h3, h4⟩ := copyObjs_user hw hp post (pre ++ [e]) s1 (by rw [hf]; simp) h2
    refine ⟨s2, ?_, h4⟩
    simp only [copyObjs, h1, Res.bind]
    exact h3

/-- **C54, partial: plain names.** For every file whose names cause no trouble, h5lreplay copies exactly the objects and
attributes of the user, under their names, in every group, and knows every dataset by its number. -/
theorem C54_copy_partial {f : NFile} {n : Nat} (hw : FileWF f n) (hp : Plain f) :
    ∃ st, replayCopy f n = .ok st ∧ st.out = userFile f ∧
      ∀ e ∈ f.objs, ∀ i d m t p, e.kind = .dset i d m t → userPath e.path = some p → st.dsets[i]? = some (some p) := by
  have ha := copyAttrs_user f.root [] hw.root hp.root (by simp)
  rw [List.nil_append] at ha
  obtain ⟨st, h1, h2⟩ := copyObjs_user hw hp f.objs [] ⟨⟨userAttrs f.root, [], []⟩, List.replicate n none⟩ rfl
    ⟨rfl, by simp, by simp⟩
  refine ⟨st, ?_, ?_, h2.tab⟩
  · unfold replayCopy
    rw [ha]
    exact h1
  · rw [h2.out]
    unfold userFile
    rw [hp.links]
    rfl

/-- A file with the internal objects, two datasets, a group and attributes, one of them with an underscore. -/
def rcFile : NFile :=
  ⟨[("_int_att".toList, [1]), ("__a".toList, [2])],
   [⟨["_LOG".toList], .group, []⟩, ⟨["_LOG".toList, "_ld_0".toList], .dset 9 [] [] 0, []⟩,
    ⟨["x".toList], .dset 0 [4] [some 4] 1, [("_dims".toList, [4]), ("__u".toList, [7])]⟩,
    ⟨["g".toList], .group, [("b".toList, [3])]⟩,
    ⟨["g".toList, ".y".toList], .dset 1 [2, 3] [some 2, some 3] 1, []⟩,
    ⟨["t".toList], .other 5, []⟩], []⟩

/-- Decidable form of the condition on parents. -/
def parentsB : List OEnt → List OEnt → Bool
  | _, [] => true
  | pre, e :: es => (decide (e.path.dropLast = []) || pre.any (fun g => decide (g.path = e.path.dropLast ∧ g.kind = .group))) &&
      parentsB (pre ++ [e]) es

theorem parents_of : ∀ (l acc : List OEnt), parentsB acc l = true → ∀ pre e post, l = pre ++ e :: post →
    e.path.dropLast ≠ [] → ∃ g ∈ acc ++ pre, g.path = e.path.dropLast ∧ g.kind = .group
  | [], _, _, pre, e, post, h, _ => by simp at h
  | x :: l, acc, hb, pre, e, post, h, hd => by
    simp only [parentsB, Bool.and_eq_true, Bool.or_eq_true, decide_eq_true_eq, List.any_eq_true] at hb
    cases pre with
    | nil =>
      simp only [List.nil_append, List.cons.injEq] at h
      obtain ⟨rfl, rfl⟩ := h
      rcases hb.1 with h1 | ⟨g, g1, g2⟩
      · exact absurd h1 hd
      · exact ⟨g, by simp [g1], g2⟩
    | cons y pre =>
      simp only [List.cons_append, List.cons.injEq] at h
      obtain ⟨rfl, h⟩ := h
      obtain ⟨g, g1, g2⟩ := parents_of l (acc ++ [x]) hb.2 pre e post h hd
      exact ⟨g, by simpa using g1, g2⟩

def kindId : OKind → Option Nat
  | .dset i _ _ _ => some i
  | _ => none

theorem wf_of {f : NFile} {n : Nat} (h1 : (f.objs.map OEnt.path).Nodup)
    (h2 : ∀ e ∈ f.objs, e.path ≠ [] ∧ ∀ c ∈ e.path, c ≠ [] ∧ '/' ∉ c) (h3 : parentsB [] f.objs = true)
    (h4 : (f.root.map Prod.fst).Nodup) (h5 : ∀ e ∈ f.objs, (e.attrs.map Prod.fst).Nodup)
    (h6 : ∀ e ∈ f.objs, ∀ i ∈ kindId e.kind, i < n)
    (h7 : f.objs.Pairwise (fun e e' => ∀ i ∈ kindId e.kind, ∀ i' ∈ kindId e'.kind, i ≠ i')) : FileWF f n := by
  refine ⟨h1, h2, ?_, h4, h5, ?_, ?_⟩
  · intro pre e post h hd
    simpa using parents_of f.objs [] h3 pre e post h hd
  · intro e he i d m t hk
    exact h6 e he i (by rw [hk]; rfl)
  · refine h7.imp ?_
    intro a b h i d m t i' d' m' t' hk hk'
    exact h i (by rw [hk]; rfl) i' (by rw [hk']; rfl)

/-- Hypotheses of `C54_copy_partial`, and the copy. -/
example : FileWF rcFile 10 ∧ Plain rcFile ∧ userFile rcFile = ⟨[("_a".toList, [2])],
    [⟨["x".toList], .dset 0 [4] [some 4] 1, [("_u".toList, [7])]⟩,
     ⟨["g".toList], .group, [("b".toList, [3])]⟩,
     ⟨["g".toList, ".y".toList], .dset 1 [2, 3] [some 2, some 3] 1, []⟩,
     ⟨["t".toList], .other 5, []⟩], []⟩ := by
  refine ⟨wf_of (by decide) (by decide) (by decide) (by decide) (by decide) (by decide) (by decide), ?_, by decide⟩
  refine ⟨?_, by decide, by decide, ?_, ?_, rfl⟩
  · intro e he
    simp only [rcFile, List.mem_cons, List.not_mem_nil, or_false] at he
    rcases he with rfl | rfl | rfl | rfl | rfl | rfl
    · exact Or.inl ⟨_, rfl, by decide⟩
    · exact Or.inl ⟨_, rfl, by decide⟩
    all_goals exact Or.inr (by decide)
  · intro e he t hk
    simp only [rcFile, List.mem_cons, List.not_mem_nil, or_false] at he
    rcases he with rfl | rfl | rfl | rfl | rfl | rfl <;> cases hk
    simp
  · intro e he i d m t hk
    simp only [rcFile, List.mem_cons, List.not_mem_nil, or_false] at he
    rcases he with rfl | rfl | rfl | rfl | rfl | rfl <;> cases hk <;> rfl

/-! ### Names that are not reproduced -/

theorem copyObjs_append (f : NFile) (a b : List OEnt) (st : CopySt) :
    copyObjs f (a ++ b) st = (copyObjs f a st).bind (copyObjs f b) := by
  induction a generalizing st with
  | nil => rfl
  | cons e a ih =>
    simp only [List.cons_append, copyObjs]
    cases copyObj f st e with
    | ok s => simp only [Res.bind]; exact ih s
    | err => rfl
    | ub => rfl

/-- **C54 is violated: names that begin with an underscore.** Whatever else is in the file: if the user has created an object
`_x` in the root (stored as `__x`), and the file has no object that is stored as `_x`, the replay fails. -/
theorem C54_underscore_violated (f : NFile) (n : Nat) (x : Name) {e : OEnt} (he : e ∈ f.objs)
    (hp : e.path = ['_' :: '_' :: x]) (hno : ∀ e' ∈ f.objs, e'.path ≠ ['_' :: x]) :
    userPath e.path = some ['_' :: x] ∧ ∀ st, replayCopy f n ≠ .ok st := by
  refine ⟨by rw [hp]; rfl, ?_⟩
  intro st h
  unfold replayCopy at h
  obtain ⟨a, _, h⟩ := Res.bind_ok h
  obtain ⟨pre, post, hf⟩ := List.append_of_mem he
  have : copyObjs f (pre ++ e :: post) ⟨⟨a, [], []⟩, List.replicate n none⟩ = .ok st := by rw [← hf]; exact h
  rw [copyObjs_append] at this
  obtain ⟨s1, _, h1⟩ := Res.bind_ok this
  simp only [copyObjs] at h1
  obtain ⟨s2, h2, _⟩ := Res.bind_ok h1
  have hv : visitPath e.path = some ['_' :: x] := by
    rw [hp]
    simp [visitPath, visitName]
  have hn : findEnt f.objs ['_' :: x] = none := findEnt_none hno
  unfold copyObj at h2
  rw [hv] at h2
  simp only [hn] at h2
  cases hk : e.kind <;> rw [hk] at h2 <;> simp at h2

/-- Such a file with everything else in order. -/
example : ∃ f e, FileWF f 1 ∧ e ∈ f.objs ∧ e.path = ['_' :: '_' :: "x".toList] ∧ (∀ e' ∈ f.objs, e'.path ≠ ['_' :: "x".toList]) :=
  ⟨⟨[], [⟨["_LOG".toList], .group, []⟩, ⟨["__x".toList], .dset 0 [4] [some 4] 1, []⟩], []⟩,
    ⟨["__x".toList], .dset 0 [4] [some 4] 1, []⟩,
    wf_of (by decide) (by decide) (by decide) (by decide) (by decide) (by decide) (by decide), by decide, by decide, by decide⟩

/-- **C54 is violated: other names.** (1) `_y` in a group is copied as `__y`; (2) an object whose name begins with a dot, (3) an
attribute whose name begins with a dot or a slash, and (4) a further link are lost; (5) an attribute `_a` of a named type is
copied as `__a`; (6) the group `_LOG` of a user gets the attributes of the log group instead of its own; (7) a dataset that can
grow becomes fixed. -/
theorem C54_names_violated :
    (∃ f st, FileWF f 1 ∧ (userFile f).objs.map OEnt.path = [["g".toList], ["g".toList, "_y".toList]] ∧
      replayCopy f 1 = .ok st ∧ st.out.objs.map OEnt.path = [["g".toList], ["g".toList, "__y".toList]]) ∧
    (∃ f st, FileWF f 1 ∧ (userFile f).objs.map OEnt.path = [[".x".toList]] ∧ replayCopy f 1 = .ok st ∧ st.out.objs = []) ∧
    (∃ f st, FileWF f 1 ∧ (userFile f).root = [(".a".toList, [1]), ("/b".toList, [2])] ∧ replayCopy f 1 = .ok st ∧ st.out.root = []) ∧
    (∃ f st, FileWF f 1 ∧ (userFile f).links = [["z".toList]] ∧ replayCopy f 1 = .ok st ∧ st.out.links = []) ∧
    (∃ f st, FileWF f 1 ∧ (userFile f).objs.map OEnt.attrs = [[("_a".toList, [1])]] ∧ replayCopy f 1 = .ok st ∧
      st.out.objs.map OEnt.attrs = [[("__a".toList, [1])]]) ∧
    (∃ f st, FileWF f 1 ∧ (userFile f).objs = [⟨["_LOG".toList], .group, [("a".toList, [1])]⟩] ∧ replayCopy f 1 = .ok st ∧
      st.out.objs = [⟨["_LOG".toList], .group, []⟩]) ∧
    (∃ f st, FileWF f 1 ∧ (userFile f).objs = [⟨["x".toList], .dset 0 [4] [none] 1, []⟩] ∧ replayCopy f 1 = .ok st ∧
      st.out.objs = [⟨["x".toList], .dset 0 [4] [some 4] 1, []⟩]) := by
  refine ⟨⟨⟨[], [⟨["g".toList], .group, []⟩, ⟨["g".toList, "__y".toList], .dset 0 [4] [some 4] 1, []⟩], []⟩, _, ?_, ?_, rfl, ?_⟩,
    ⟨⟨[], [⟨[".x".toList], .dset 0 [4] [some 4] 1, []⟩], []⟩, _, ?_, ?_, rfl, ?_⟩,
    ⟨⟨[(".a".toList, [1]), ("/b".toList, [2])], [], []⟩, _, ?_, ?_, rfl, ?_⟩,
    ⟨⟨[], [⟨["x".toList], .dset 0 [4] [some 4] 1, []⟩], [["z".toList]]⟩, _, ?_, ?_, rfl, ?_⟩,
    ⟨⟨[], [⟨["t".toList], .other 1, [("__a".toList, [1])]⟩], []⟩, _, ?_, ?_, rfl, ?_⟩,
    ⟨⟨[], [⟨["_LOG".toList], .group, []⟩, ⟨["__LOG".toList], .group, [("a".toList, [1])]⟩], []⟩, _, ?_, ?_, rfl, ?_⟩,
    ⟨⟨[], [⟨["x".toList], .dset 0 [4] [none] 1, []⟩], []⟩, _, ?_, ?_, rfl, ?_⟩⟩
  all_goals first
    | exact wf_of (by decide) (by decide) (by decide) (by decide) (by decide) (by decide) (by decide)
    | decide

end Verif.Props
