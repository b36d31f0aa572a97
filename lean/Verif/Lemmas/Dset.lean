import Verif.Spec.Dset

/-
The connector's answers about datasets follow the specification: simulation relation and its preservation.
-/

namespace Verif.Dset

open Verif.Spec.Dset (Decl fillOf resize Plain Kept Allowed AllowedRun)

def InfoOK (fresh : Bool) (d : Decl) (i : Info) : Prop :=
  i.ty = d.ty ∧ createSimple i.dims i.mdims = d.space ∧ i.dims.length = i.mdims.length ∧ i.fill = fillOf d ∧
    (i.filters = d.dcpl.filters ∨ (fresh = false ∧ i.filters = []))

def OInfoOK (fresh : Bool) (d : Decl) : Option Info → Prop
  | none => fresh = false
  | some i => InfoOK fresh d i

def AnchorOK (enc : Bool) (d : Decl) (a : Anchor) : Prop :=
  a.name = d.name ∧ a.ty = d.ty ∧ createSimple a.dims a.mdims = d.space ∧ a.dims.length = a.mdims.length ∧
    a.dcpl.layout = .contiguous ∧ a.dcpl.filters = [] ∧ a.dcpl.fill = d.dcpl.fill ∧ (enc = true → a.dims ≠ [])

/-- Property list of an open dataset. -/
def ListOK (d p : DCpl) : Prop := p.layout = .contiguous ∧ (p.filters = d.filters ∨ p.filters = []) ∧ p.fill = d.fill

def HandleOK (ds : List Decl) (is : List (Option Info)) : Option Nat → Option Handle → Prop
  | none, none => True
  | some i, some x => x.id = i ∧ (∃ d, ds[i]? = some d ∧ ListOK d.dcpl x.dcpl) ∧ ∃ f, is[i]? = some (some f)
  | _, _ => False

structure Rel (enc plain fresh : Bool) (s : Spec.Dset.St) (m : St) : Prop where
  lists : List.Forall₂ (fun p q => q.filters = p.filters ∧ q.fill = p.fill ∧ (plain = true → q = p ∧ Plain p)) s.plists m.plists
  anchors : List.Forall₂ (AnchorOK enc) s.decls m.anchors
  infos : List.Forall₂ (OInfoOK fresh) s.decls m.infos
  handles : List.Forall₂ (HandleOK s.decls m.infos) s.handles m.handles
  plainD : plain = true → ∀ d ∈ s.decls, Plain d.dcpl

theorem forall₂_getElem? {α β : Type} {R : α → β → Prop} {xs : List α} {ys : List β} (h : List.Forall₂ R xs ys) :
    ∀ (i : Nat) (x : α), xs[i]? = some x → ∃ y, ys[i]? = some y ∧ R x y := by
  induction h with
  | nil => intro i x hx; simp at hx
  | cons hr _ ih =>
    intro i x hx
    cases i with
    | zero => simp only [List.getElem?_cons_zero, Option.some.injEq] at hx; subst hx; exact ⟨_, rfl, hr⟩
    | succ i => simpa using ih i x (by simpa using hx)

theorem forall₂_getElem?' {α β : Type} {R : α → β → Prop} {xs : List α} {ys : List β} (h : List.Forall₂ R xs ys) :
    ∀ (i : Nat), xs[i]? = none → ys[i]? = none := by
  intro i hx
  have := h.length_eq
  simp only [List.getElem?_eq_none_iff] at *
  omega

theorem forall₂_set {α β : Type} {R : α → β → Prop} {xs : List α} {ys : List β} (h : List.Forall₂ R xs ys) (x : α) (y : β)
    (hr : R x y) : ∀ i, List.Forall₂ R (xs.set i x) (ys.set i y) := by
  induction h with
  | nil => intro i; simp
  | cons hr' ht ih =>
    intro i
    cases i with
    | zero => exact .cons hr ht
    | succ i => exact .cons hr' (ih i)

theorem forall₂_set_right {α β : Type} {R : α → β → Prop} {xs : List α} {ys : List β} (h : List.Forall₂ R xs ys) (y : β) :
    ∀ i, (∀ x, xs[i]? = some x → R x y) → List.Forall₂ R xs (ys.set i y) := by
  induction h with
  | nil => intro i _; simp
  | cons hr' ht ih =>
    intro i hr
    cases i with
    | zero => exact .cons (hr _ rfl) ht
    | succ i => exact .cons hr' (ih i (fun x hx => hr x (by simpa using hx)))

theorem forall₂_modify {α β : Type} {R : α → β → Prop} {xs : List α} {ys : List β} (h : List.Forall₂ R xs ys) (f : α → α)
    (g : β → β) : ∀ i, (∀ x y, xs[i]? = some x → ys[i]? = some y → R x y → R (f x) (g y)) →
      List.Forall₂ R (xs.modify i f) (ys.modify i g) := by
  induction h with
  | nil => intro i _; simp
  | cons hr' ht ih =>
    intro i hr
    cases i with
    | zero => exact .cons (hr _ _ rfl rfl hr') ht
    | succ i => exact .cons hr' (ih i (fun x y hx hy => hr x y (by simpa using hx) (by simpa using hy)))

theorem forall₂_modify_set {α β : Type} {R : α → β → Prop} {xs : List α} {ys : List β} (h : List.Forall₂ R xs ys) (f : α → α)
    (z : β) : ∀ i, (∀ x, xs[i]? = some x → R (f x) z) → List.Forall₂ R (xs.modify i f) (ys.set i z) := by
  induction h with
  | nil => intro i _; simp
  | cons hr' ht ih =>
    intro i hr
    cases i with
    | zero => exact .cons (hr _ rfl) ht
    | succ i => exact .cons hr' (ih i (fun x hx => hr x (by simpa using hx)))

theorem forall₂_append_one {α β : Type} {R : α → β → Prop} {xs : List α} {ys : List β} (h : List.Forall₂ R xs ys) {x : α} {y : β}
    (hr : R x y) : List.Forall₂ R (xs ++ [x]) (ys ++ [y]) := by
  induction h with
  | nil => exact .cons hr .nil
  | cons hr' _ ih => exact .cons hr' ih

theorem forall₂_imp {α β : Type} {R S : α → β → Prop} (hi : ∀ x y, R x y → S x y) {xs : List α} {ys : List β}
    (h : List.Forall₂ R xs ys) : List.Forall₂ S xs ys := by
  induction h with
  | nil => exact .nil
  | cons hr _ ih => exact .cons (hi _ _ hr) ih

theorem OInfoOK.mk {fresh : Bool} {d : Decl} {i : Info} (h : InfoOK fresh d i) : OInfoOK fresh d (some i) := h

theorem HandleOK.mk {ds : List Decl} {is : List (Option Info)} {i : Nat} {x : Handle} (h1 : x.id = i)
    (h2 : ∃ d, ds[i]? = some d ∧ ListOK d.dcpl x.dcpl) (h3 : ∃ f, is[i]? = some (some f)) : HandleOK ds is (some i) (some x) :=
  ⟨h1, h2, h3⟩

/-- A handle remains right when datasets are added or changed without changing their property lists. -/
theorem HandleOK.mono {ds ds' : List Decl} {is is' : List (Option Info)}
    (hd : ∀ (i : Nat) (d : Decl), ds[i]? = some d → ∃ d' : Decl, ds'[i]? = some d' ∧ d'.dcpl = d.dcpl)
    (hi : ∀ (i : Nat) f, is[i]? = some (some f) → ∃ f', is'[i]? = some (some f')) {o : Option Nat} {x : Option Handle}
    (h : HandleOK ds is o x) : HandleOK ds' is' o x := by
  match o, x, h with
  | none, none, _ => trivial
  | some i, some x, h =>
    obtain ⟨h1, ⟨d, hd1, hd2⟩, f, hf⟩ := h
    obtain ⟨d', hd1', hd2'⟩ := hd i d hd1
    exact ⟨h1, ⟨d', hd1', by rw [hd2']; exact hd2⟩, hi i f hf⟩

theorem any_name {enc : Bool} {ds : List Decl} {as : List Anchor} (h : List.Forall₂ (AnchorOK enc) ds as) (n : Name) :
    as.any (fun a => a.name == n) = ds.any (fun d => d.name == n) := by
  induction h with
  | nil => rfl
  | cons hr _ ih => simp only [List.any_cons, hr.1, ih]

theorem findIdx?_name {enc : Bool} {ds : List Decl} {as : List Anchor} (h : List.Forall₂ (AnchorOK enc) ds as) (n : Name) :
    as.findIdx? (fun a => a.name == n) = ds.findIdx? (fun d => d.name == n) := by
  induction h with
  | nil => rfl
  | cons hr _ ih => simp only [List.findIdx?_cons, hr.1, ih]

theorem findIdx?_lt {α : Type} {p : α → Bool} {l : List α} {i : Nat} (h : l.findIdx? p = some i) : ∃ x, l[i]? = some x := by
  have := List.findIdx?_eq_some_iff_getElem.mp h
  obtain ⟨hlt, _⟩ := this
  exact ⟨l[i], by simp [hlt]⟩

/-- The property list shared by the handles of a dataset. -/
theorem shared_ok {enc plain fresh : Bool} {s : Spec.Dset.St} {m : St} (h : Rel enc plain fresh s m) {i : Nat} {d : Decl}
    {a : Anchor} (hd : s.decls[i]? = some d) (ha : m.anchors[i]? = some a) : ListOK d.dcpl (m.shared i a) := by
  have hA : ListOK d.dcpl a.dcpl := by
    obtain ⟨a', ha', hok⟩ := forall₂_getElem? h.anchors i d hd
    rw [ha] at ha'
    cases ha'
    exact ⟨hok.2.2.2.2.1, .inr hok.2.2.2.2.2.1, hok.2.2.2.2.2.2.1⟩
  unfold St.shared
  cases hf : m.handles.find? (fun h => h.any (fun x => x.id == i)) with
  | none => simpa using hA
  | some o =>
    have hp := List.find?_some hf
    have hm := List.mem_of_find?_eq_some hf
    cases o with
    | none => simp at hp
    | some x =>
      have hx : x.id = i := by simpa using hp
      obtain ⟨j, hj⟩ := List.mem_iff_getElem?.mp hm
      have hl := h.handles.length_eq
      have hjl : j < m.handles.length := (List.getElem?_eq_some_iff.mp hj).1
      obtain ⟨y, hy, hok⟩ := forall₂_getElem? h.handles j (s.handles[j]'(by omega)) (by simp)
      rw [hj] at hy
      cases hy
      cases ho : s.handles[j]'(by omega) with
      | none => rw [ho] at hok; exact hok.elim
      | some k =>
        rw [ho] at hok
        obtain ⟨h1, ⟨d', hd1, hd2⟩, _⟩ := hok
        have : k = i := by rw [← h1]; exact hx
        subst this
        rw [hd] at hd1
        cases hd1
        simpa using hd2

theorem extentLoop_fits : ∀ (m : List (Option Nat)) (new d : List Nat), new.length = d.length → d.length = m.length →
    (new.zip m).all (fun p => p.2.all (fun k => decide (p.1 ≤ k))) = true → extentLoop m new d = (true, new)
  | [], [], [], _, _, _ => rfl
  | mx :: m, n :: new, x :: d, h1, h2, h3 => by
    simp only [List.zip_cons_cons, List.all_cons, Bool.and_eq_true] at h3
    have ih := extentLoop_fits m new d (by simpa using h1) (by simpa using h2) h3.2
    have hm : mx.any (fun k => decide (k < n)) = false := by
      cases mx with
      | none => rfl
      | some k => simpa using h3.1
    simp only [extentLoop, hm, ih]
    simp
  | [], _ :: _, _, h1, h2, _ => by simp at h2; simp [h2] at h1
  | [], [], _ :: _, h1, _, _ => by simp at h1
  | _ :: _, [], _, h1, h2, _ => by simp at h1; simp [← h1] at h2
  | _ :: _, _ :: _, [], h1, _, _ => by simp at h1

theorem createSimple_simple {dims : List Nat} {mdims : List (Option Nat)} {d : List Nat} {m : List (Option Nat)}
    (h : createSimple dims mdims = .simple d m) : dims = d ∧ mdims = m ∧ d ≠ [] := by
  unfold createSimple at h
  split at h
  · exact Space.noConfusion h
  · cases h; exact ⟨rfl, rfl, by assumption⟩

theorem kept_extent {enc : Bool} {sp : Space} (h : Kept enc sp) :
    createSimple sp.extent.1 sp.extent.2 = sp ∧ sp.extent.1.length = sp.extent.2.length ∧ (enc = true → sp.extent.1 ≠ []) := by
  cases sp with
  | null => exact h.elim
  | scalar => exact ⟨rfl, rfl, fun he => by rw [show enc = false from h] at he; exact Bool.noConfusion he⟩
  | simple d m => exact ⟨by simp [Space.extent, createSimple, h.1], h.2, fun _ => h.1⟩

/-- The handle as the specification sees it. -/
theorem Rel.handle {enc plain fresh : Bool} {s : Spec.Dset.St} {m : St} (h : Rel enc plain fresh s m) (k : Nat) :
    ((s.handles[k]?).join = none ∧ m.handle k = none) ∨
    (∃ d x f, (s.handles[k]?).join = some x.id ∧ s.decls[x.id]? = some d ∧ m.handle k = some x ∧ ListOK d.dcpl x.dcpl ∧
      m.infos[x.id]? = some (some f) ∧ InfoOK fresh d f) := by
  unfold St.handle
  cases hs : s.handles[k]? with
  | none => exact .inl ⟨rfl, by rw [forall₂_getElem?' h.handles k hs]; rfl⟩
  | some o =>
    obtain ⟨x, hx, hok⟩ := forall₂_getElem? h.handles k o hs
    rw [hx]
    match o, x, hok with
    | none, none, _ => exact .inl ⟨rfl, rfl⟩
    | some i, some x, hok =>
      obtain ⟨h1, ⟨d, hd1, hd2⟩, f, hf⟩ := hok
      subst h1
      obtain ⟨f', hf', hfo⟩ := forall₂_getElem? h.infos x.id d hd1
      rw [hf] at hf'
      cases hf'
      exact .inr ⟨d, x, f, rfl, hd1, rfl, hd2, hf, hfo⟩

/-- A query answered from the entry of the dataset. -/
theorem Rel.ask {enc plain fresh : Bool} {s : Spec.Dset.St} {m : St} (h : Rel enc plain fresh s m) (k : Nat)
    (f : Handle → Info → Out) (g : Decl → Out)
    (he : ∀ d x i, s.decl k = some d → d ∈ s.decls → ListOK d.dcpl x.dcpl → InfoOK fresh d i → f x i = g d) :
    m.ask k f = .ok (m, (s.ask k g).2) := by
  unfold St.ask Spec.Dset.St.ask Spec.Dset.St.decl
  rcases h.handle k with ⟨h1, h2⟩ | ⟨d, x, i, h1, h2, h3, h4, h5, h6⟩
  · rw [h1, h2]; rfl
  · rw [h1, h3]
    simp only [h5, Option.bind_some, h2, Option.map_some, Option.getD_some, Option.join_some]
    rw [he d x i (by simp [Spec.Dset.St.decl, h1, h2]) (List.mem_of_getElem? h2) h4 h6]

theorem ask_state (s : Spec.Dset.St) (k : Nat) (g : Decl → Out) : (s.ask k g).1 = s := rfl

theorem plain_list {p q : DCpl} (h : ListOK p q) (hp : Plain p) : q = p := by
  obtain ⟨h1, h2, h3⟩ := h
  obtain ⟨h4, h5⟩ := hp
  cases p; cases q
  simp only at *
  subst h1 h3 h4
  rcases h2 with h2 | h2 <;> simp [h2, h5]

theorem visit_ok {enc : Bool} {ds : List Decl} {as : List Anchor} (h : List.Forall₂ (AnchorOK enc) ds as) :
    ∃ is, visit enc as = .ok is ∧ List.Forall₂ (OInfoOK false) ds is := by
  induction h with
  | nil => exact ⟨[], rfl, .nil⟩
  | @cons d a ds as hr _ ih =>
    obtain ⟨is, h1, h2⟩ := ih
    simp only [visit, h1]
    split
    · exact ⟨none :: is, rfl, .cons rfl h2⟩
    · have hb : buildInfo enc a a.dcpl = .ok ⟨a.ty, a.dims, a.mdims, a.dcpl.filters, a.dcpl.fillBytes a.ty.size⟩ := by
        unfold buildInfo
        rw [if_neg (fun hc => hr.2.2.2.2.2.2.2 hc.1 hc.2)]
      rw [hb]
      refine ⟨_ :: is, rfl, .cons ⟨hr.2.1, hr.2.2.1, hr.2.2.2.1, ?_, .inr ⟨rfl, hr.2.2.2.2.2.1⟩⟩ h2⟩
      simp only [DCpl.fillBytes, fillOf, hr.2.2.2.2.2.2.1, hr.2.1]
      rfl

theorem getElem?_append_one {α : Type} (l : List α) (x : α) (i : Nat) (y : α) (h : l[i]? = some y) : (l ++ [x])[i]? = some y := by
  rw [List.getElem?_append_left (List.getElem?_eq_some_iff.mp h).1, h]

theorem Rel.create {enc plain fresh : Bool} {s : Spec.Dset.St} {m : St} (h : Rel enc plain fresh s m) {n : Name} {t : DType}
    {sp : Space} {p : Nat} (hv : t.varStr = false) (hk : Kept enc sp) :
    ∃ m', m.create enc n t sp p = .ok (m', (s.step (.create n t sp p)).2) ∧
      Rel enc plain fresh (s.step (.create n t sp p)).1 m' := by
  obtain ⟨k1, k2, k3⟩ := kept_extent hk
  simp only [St.create, hv, Bool.false_eq_true, if_false, Spec.Dset.St.step]
  cases hp : s.plists[p]? with
  | none => rw [forall₂_getElem?' h.lists p hp]; exact ⟨m, rfl, h⟩
  | some q =>
    obtain ⟨q', hq', hq1, hq2, hq3⟩ := forall₂_getElem? h.lists p q hp
    rw [hq']
    have hl : List.Forall₂ (fun p q => q.filters = p.filters ∧ q.fill = p.fill ∧ (plain = true → q = p ∧ Plain p)) s.plists
        (m.plists.set p { q' with layout := .contiguous }) := by
      refine forall₂_set_right h.lists _ p (fun x hx => ?_)
      rw [hp] at hx
      cases hx
      refine ⟨hq1, hq2, fun hpl => ?_⟩
      obtain ⟨h1, h2⟩ := hq3 hpl
      refine ⟨?_, h2⟩
      subst h1
      cases q'
      simp only [Plain] at h2
      rw [h2.1]
    simp only [any_name h.anchors]
    split
    · exact ⟨_, rfl, ⟨hl, h.anchors, h.infos, h.handles, h.plainD⟩⟩
    · rw [if_neg (fun hc => k3 hc.1 hc.2)]
      have hla := h.anchors.length_eq
      have hli := h.infos.length_eq
      have hlh := h.handles.length_eq
      have hst : ({ q' with layout := .contiguous } : DCpl).stored = ⟨.contiguous, [], q'.fill⟩ := rfl
      refine ⟨_, by rw [hlh], ⟨hl, forall₂_append_one h.anchors ⟨rfl, rfl, k1, k2, ?_, ?_, ?_, k3⟩,
        forall₂_append_one h.infos (OInfoOK.mk ⟨rfl, k1, k2, ?_, .inl hq1⟩), ?_, ?_⟩⟩
      · rw [hst]
      · rw [hst]
      · rw [hst]; exact hq2
      · simp only [DCpl.fillBytes, fillOf, hq2]; rfl
      · refine forall₂_append_one (forall₂_imp (fun o x ho => HandleOK.mono ?_ ?_ ho) h.handles) ?_
        · intro i d hd; exact ⟨d, getElem?_append_one _ _ _ _ hd, rfl⟩
        · intro i f hf; exact ⟨f, getElem?_append_one _ _ _ _ hf⟩
        · refine HandleOK.mk hla.symm ⟨⟨n, t, sp, q⟩, by simp, rfl, .inl hq1, hq2⟩ ?_
          exact ⟨_, by rw [hli]; simp; rfl⟩
      · intro hpl d hd
        simp only [List.mem_append, List.mem_singleton] at hd
        rcases hd with hd | hd
        · exact h.plainD hpl d hd
        · subst hd; exact (hq3 hpl).2

theorem Rel.openD {enc plain fresh : Bool} {s : Spec.Dset.St} {m : St} (h : Rel enc plain fresh s m) (n : Name) :
    ∃ m', m.open enc n = .ok (m', (s.step (.open n)).2) ∧ Rel enc plain fresh (s.step (.open n)).1 m' := by
  simp only [St.open, Spec.Dset.St.step, findIdx?_name h.anchors]
  have hlh := h.handles.length_eq
  cases hf : s.decls.findIdx? (fun d => d.name == n) with
  | none => exact ⟨m, rfl, h⟩
  | some id =>
    obtain ⟨d, hd⟩ := findIdx?_lt hf
    obtain ⟨a, ha, haok⟩ := forall₂_getElem? h.anchors id d hd
    obtain ⟨o, ho, hook⟩ := forall₂_getElem? h.infos id d hd
    have hsh := shared_ok h hd ha
    simp only [ha, ho]
    cases o with
    | some i =>
      refine ⟨{ m with handles := m.handles ++ [some ⟨id, m.shared id a⟩] }, by rw [hlh],
        ⟨h.lists, h.anchors, h.infos, ?_, h.plainD⟩⟩
      exact forall₂_append_one h.handles (HandleOK.mk rfl ⟨d, hd, hsh⟩ ⟨i, ho⟩)
    | none =>
      have hb : buildInfo enc a (m.shared id a) =
          .ok ⟨a.ty, a.dims, a.mdims, (m.shared id a).filters, (m.shared id a).fillBytes a.ty.size⟩ := by
        unfold buildInfo
        rw [if_neg (fun hc => haok.2.2.2.2.2.2.2 hc.1 hc.2)]
      have hil : id < m.infos.length := (List.getElem?_eq_some_iff.mp ho).1
      have hfr : fresh = false := hook
      simp only [hb]
      refine ⟨⟨m.plists, m.anchors, m.infos.set id (some ⟨a.ty, a.dims, a.mdims, (m.shared id a).filters,
        (m.shared id a).fillBytes a.ty.size⟩), m.handles ++ [some ⟨id, m.shared id a⟩]⟩, by rw [hlh]; rfl,
        ⟨h.lists, h.anchors, ?_, ?_, h.plainD⟩⟩
      · refine forall₂_set_right h.infos _ id (fun x hx => ?_)
        rw [hd] at hx
        cases hx
        refine OInfoOK.mk ⟨haok.2.1, haok.2.2.1, haok.2.2.2.1, ?_, ?_⟩
        · simp only [DCpl.fillBytes, fillOf, hsh.2.2, haok.2.1]; rfl
        · rcases hsh.2.1 with h1 | h1
          · exact .inl h1
          · exact .inr ⟨hfr, h1⟩
      · refine forall₂_append_one (forall₂_imp (fun o x ho => HandleOK.mono ?_ ?_ ho) h.handles) ?_
        · intro i d hd; exact ⟨d, hd, rfl⟩
        · intro i f hf
          by_cases hi : i = id
          · subst hi; exact ⟨_, by simp [hil]; rfl⟩
          · exact ⟨f, by rw [List.getElem?_set_ne (by omega)]; exact hf⟩
        · exact HandleOK.mk rfl ⟨d, hd, hsh⟩ ⟨_, by simp [hil]; rfl⟩

theorem Rel.close {enc plain fresh : Bool} {s : Spec.Dset.St} {m : St} (h : Rel enc plain fresh s m) (k : Nat) :
    ∃ m', m.step enc (.close k) = .ok (m', (s.step (.close k)).2) ∧ Rel enc plain fresh (s.step (.close k)).1 m' := by
  simp only [St.step, Spec.Dset.St.step]
  rcases h.handle k with ⟨h1, h2⟩ | ⟨d, x, i, h1, h2, h3, h4, h5, h6⟩
  · rw [h1, h2]; exact ⟨m, rfl, h⟩
  · rw [h1, h3]
    exact ⟨_, rfl, ⟨h.lists, h.anchors, h.infos, forall₂_set h.handles none none trivial k, h.plainD⟩⟩

theorem Rel.setExtent {enc plain fresh : Bool} {s : Spec.Dset.St} {m : St} (h : Rel enc plain fresh s m) (k : Nat)
    (new : List Nat) (ha : ∀ d, s.decl k = some d → ∃ sp, resize d.space new = some sp) :
    ∃ m', m.setExtent enc k new = .ok (m', (s.step (.setExtent k new)).2) ∧
      Rel enc plain fresh (s.step (.setExtent k new)).1 m' := by
  simp only [St.setExtent, Spec.Dset.St.step]
  rcases h.handle k with ⟨h1, h2⟩ | ⟨d, x, i, h1, h2, h3, h4, h5, h6⟩
  · rw [h1, h2]; exact ⟨m, rfl, h⟩
  · rw [h1, h3]
    obtain ⟨sp, hsp⟩ := ha d (by simp [Spec.Dset.St.decl, h1, h2])
    simp only [h5, h2, Option.bind_some, hsp, Option.join_some]
    obtain ⟨i1, i2, i3, i4, i5⟩ := h6
    cases hds : d.space with
    | null => rw [hds] at hsp; exact absurd hsp (by simp [resize])
    | scalar => rw [hds] at hsp; exact absurd hsp (by simp [resize])
    | simple dd mm =>
      rw [hds] at hsp i2
      obtain ⟨j1, j2, j3⟩ := createSimple_simple i2
      simp only [resize] at hsp
      split at hsp
      case isFalse => exact absurd hsp (by simp)
      case isTrue hc =>
      cases hsp
      subst j1 j2
      have hne : new ≠ [] := by
        intro hn; rw [hn] at hc; exact j3 (List.length_eq_zero_iff.mp hc.1.symm)
      rw [if_neg (by omega), extentLoop_fits i.mdims new i.dims hc.1 i3 hc.2]
      simp only [Bool.not_true, Bool.false_eq_true, if_false, hne, and_false]
      have hcs : createSimple new i.mdims = .simple new i.mdims := by simp [createSimple, hne]
      refine ⟨_, rfl, ⟨h.lists, ?_, ?_, ?_, ?_⟩⟩
      · refine forall₂_modify h.anchors _ _ x.id (fun e a he hea hr => ?_)
        rw [h2] at he
        cases he
        obtain ⟨a1, a2, a3, a4, a5, a6, a7, a8⟩ := hr
        rw [hds] at a3
        obtain ⟨b1, b2, b3⟩ := createSimple_simple a3
        exact ⟨a1, a2, by rw [b2]; exact hcs, by simp only [b2]; omega, a5, a6, a7, fun _ => hne⟩
      · refine forall₂_modify_set h.infos _ _ x.id (fun e he => ?_)
        rw [h2] at he
        cases he
        exact OInfoOK.mk ⟨i1, hcs, by simp only; omega, i4, i5⟩
      · refine forall₂_imp (fun o y ho => HandleOK.mono ?_ ?_ ho) h.handles
        · intro j e he
          by_cases hj : j = x.id
          · subst hj
            rw [h2] at he
            cases he
            exact ⟨{ d with space := .simple new i.mdims }, by simp [h2], rfl⟩
          · exact ⟨e, by rw [List.getElem?_modify_ne _ _ (by omega)]; exact he, rfl⟩
        · intro j f hf
          by_cases hj : j = x.id
          · subst hj; exact ⟨_, by simp [(List.getElem?_eq_some_iff.mp hf).1]; rfl⟩
          · exact ⟨f, by rw [List.getElem?_set_ne (by omega)]; exact hf⟩
      · intro hpl e he
        obtain ⟨j, hj⟩ := List.mem_iff_getElem?.mp he
        by_cases hjx : x.id = j
        · subst hjx
          simp only [List.getElem?_modify_eq, h2] at hj
          cases hj
          exact h.plainD hpl d (List.mem_of_getElem? h2)
        · rw [List.getElem?_modify_ne _ _ hjx] at hj
          exact h.plainD hpl e (List.mem_of_getElem? hj)

theorem Rel.step {enc plain fresh : Bool} {s : Spec.Dset.St} {m : St} (h : Rel enc plain fresh s m) (op : Op)
    (ha : Allowed enc plain fresh s op) :
    ∃ m', m.step enc op = .ok (m', (s.step op).2) ∧ Rel enc plain fresh (s.step op).1 m' := by
  cases op with
  | create n t sp p => exact h.create ha.1 ha.2
  | «open» n => exact h.openD n
  | close k => exact h.close k
  | setExtent k new => exact h.setExtent k new ha
  | getSpace k =>
    refine ⟨m, h.ask k _ _ (fun d x i _ _ _ hi => ?_), h⟩
    simp only [hi.2.1]
  | getType k =>
    refine ⟨m, ?_, h⟩
    simp only [St.step, Spec.Dset.St.step, Spec.Dset.St.ask, Spec.Dset.St.decl]
    rcases h.handle k with ⟨h1, h2⟩ | ⟨d, x, i, h1, h2, h3, h4, h5, h6⟩
    · rw [h1, h2]; rfl
    · rw [h1, h3]
      obtain ⟨a, ha1, ha2⟩ := forall₂_getElem? h.anchors x.id d h2
      simp [h2, ha1, ha2.2.1]
  | getCreate k =>
    refine ⟨m, h.ask k _ _ (fun d x i _ hd hl hi => ?_), h⟩
    simp only [plain_list hl (h.plainD ha d hd)]
  | getStorage k =>
    refine ⟨m, h.ask k _ _ (fun d x i hd _ _ _ => ?_), h⟩
    rw [show s.decl k = none from ha] at hd
    exact absurd hd (by simp)
  | getStatus k =>
    refine ⟨m, h.ask k _ _ (fun d x i hd _ _ _ => ?_), h⟩
    rw [show s.decl k = none from ha] at hd
    exact absurd hd (by simp)
  | getFill k =>
    refine ⟨m, h.ask k _ _ (fun d x i _ _ _ hi => ?_), h⟩
    simp only [hi.2.2.2.1]
  | getFilters k =>
    refine ⟨m, h.ask k _ _ (fun d x i _ hd _ hi => ?_), h⟩
    rcases hi.2.2.2.2 with hf | ⟨hfr, hf⟩
    · simp only [hf]
    · rcases ha with ha | ha
      · rw [hf, (h.plainD ha d hd).2]
      · rw [hfr] at ha; exact Bool.noConfusion ha
  | getLayout p =>
    refine ⟨m, ?_, h⟩
    simp only [St.step, Spec.Dset.St.step]
    cases hp : s.plists[p]? with
    | none => rw [forall₂_getElem?' h.lists p hp]
    | some q =>
      obtain ⟨q', hq', _, _, hq3⟩ := forall₂_getElem? h.lists p q hp
      rw [hq', (hq3 ha).1]
  | reopen =>
    have hfr : fresh = false := ha
    subst hfr
    obtain ⟨is, h1, h2⟩ := visit_ok h.anchors
    refine ⟨{ m with infos := is, handles := m.handles.map (fun _ => none) }, ?_, ⟨h.lists, h.anchors, h2, ?_, h.plainD⟩⟩
    · simp only [St.step, h1]; rfl
    · have : ∀ (xs : List (Option Nat)) (ys : List (Option Handle)), xs.length = ys.length →
          List.Forall₂ (HandleOK s.decls is) (xs.map (fun _ => none)) (ys.map (fun _ => none)) := by
        intro xs
        induction xs with
        | nil => intro ys hl; cases ys with
          | nil => exact .nil
          | cons _ _ => simp at hl
        | cons x xs ih => intro ys hl; cases ys with
          | nil => simp at hl
          | cons y ys => exact .cons trivial (ih ys (by simpa using hl))
      exact this _ _ h.handles.length_eq

theorem Rel.run {enc plain fresh : Bool} : ∀ (ops : List Op) {s : Spec.Dset.St} {m : St}, Rel enc plain fresh s m →
    AllowedRun enc plain fresh s ops → ∃ m', m.run enc ops = .ok (m', (s.run ops).2) ∧ Rel enc plain fresh (s.run ops).1 m'
  | [], s, m, h, _ => ⟨m, rfl, h⟩
  | op :: ops, s, m, h, ha => by
    obtain ⟨m', h1, h2⟩ := h.step op ha.1
    obtain ⟨m'', h3, h4⟩ := Rel.run ops h2 ha.2
    refine ⟨m'', ?_, h4⟩
    simp only [St.run, h1, Spec.Dset.St.run]
    show (m'.run enc ops).bind _ = _
    rw [h3]
    rfl

theorem Rel.new {enc plain fresh : Bool} (ps : List DCpl) (hp : plain = true → ∀ p ∈ ps, Plain p) :
    Rel enc plain fresh (Spec.Dset.St.new ps) (St.new ps) := by
  refine ⟨?_, .nil, .nil, .nil, fun _ d hd => absurd hd (by simp [Spec.Dset.St.new])⟩
  have : ∀ l : List DCpl, (plain = true → ∀ p ∈ l, Plain p) →
      List.Forall₂ (fun p q => q.filters = p.filters ∧ q.fill = p.fill ∧ (plain = true → q = p ∧ Plain p)) l l := by
    intro l
    induction l with
    | nil => intro _; exact .nil
    | cons p l ih =>
      intro h
      exact .cons ⟨rfl, rfl, fun hp => ⟨rfl, h hp p (by simp)⟩⟩ (ih (fun hp q hq => h hp q (by simp [hq])))
  exact this ps hp

end Verif.Dset
