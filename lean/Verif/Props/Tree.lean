import Verif.Model.Tree
import Verif.Spec.Names
import Verif.Props.Names
import Verif.Lemmas.Pairs

/-
C59: names of a log-based file behave like those of an ordinary file.
-/

namespace Verif.Props
open _root_.Verif.Spec (InnerUnderscore)

/-- The stored form of a component. -/
def escName (c : Name) : Name := if c.head? = some '_' then '_' :: c else c

/-- A path in which no component starts with an underscore, except possibly the first. -/
def Spec.PlainInside (p : Name) : Prop := ¬ InnerUnderscore p

/-- A path in which no component starts with an underscore. -/
def Spec.PlainPath (p : Name) : Prop := ¬ InnerUnderscore p ∧ p.head? ≠ some '_'

/-- Operations whose names need no mapping beyond their first character, that do not use `H5L_SAME_LOC` for moving, and do not
count links. -/
def Spec.FineOp : TOp → Prop
  | .create _ p _ | .open _ p _ | .exists _ p | .delete _ p | .list _ p _ => Spec.PlainInside p
  | .move a p b q => a ≠ none ∧ b ≠ none ∧ Spec.PlainInside p ∧ Spec.PlainInside q
  | .copy _ p _ q | .hard _ p _ q => Spec.PlainPath p ∧ Spec.PlainPath q
  | .count _ => False

/-! ### Names -/

theorem escName_inj {a b : Name} (h : escName a = escName b) : a = b := by
  unfold escName at h
  by_cases ha : a.head? = some '_' <;> by_cases hb : b.head? = some '_'
  · rw [if_pos ha, if_pos hb] at h; exact (List.cons.inj h).2
  · rw [if_pos ha, if_neg hb] at h; subst h; simp at hb
  · rw [if_neg ha, if_pos hb] at h; subst h; simp at ha
  · rwa [if_neg ha, if_neg hb] at h

theorem escName_ne_log (c : Name) : escName c ≠ "_LOG".toList := by
  unfold escName
  split
  · rename_i h
    intro e
    have := congrArg List.tail e
    simp only [List.tail_cons] at this
    subst this
    revert h; decide
  · rename_i h
    rintro rfl
    revert h; decide

theorem nameShown_esc (c : Name) : nameShown (escName c) = some c := by
  unfold escName nameShown
  by_cases h : c.head? = some '_'
  · simp [h]
  · simp [h]

theorem splitPath_ne : ∀ p : Name, splitPath p ≠ []
  | [] => by simp [splitPath]
  | c :: r => by
    simp only [splitPath]
    split
    · simp
    · split <;> simp

/-- Components after the first do not start with an underscore. -/
theorem splitPath_tail (p : Name) (h : ¬ InnerUnderscore p) : ∀ c ∈ (splitPath p).tail, c.head? ≠ some '_' := by
  induction p with
  | nil => simp [splitPath]
  | cons d r ih =>
    have hr : ¬ InnerUnderscore r := fun hi => h (List.infix_cons hi)
    have ih := ih hr
    simp only [splitPath]
    by_cases hd : d = '/'
    · subst hd
      rw [if_pos rfl, List.tail_cons]
      cases r with
      | nil => simp [splitPath]
      | cons e r' =>
        have he : e ≠ '_' := by rintro rfl; exact h ⟨[], r', rfl⟩
        intro c hc
        cases hs : splitPath (e :: r') with
        | nil => exact absurd hs (splitPath_ne _)
        | cons x xs =>
          rw [hs] at hc ih
          rcases List.mem_cons.1 hc with rfl | hc
          · simp only [splitPath] at hs
            by_cases h2 : e = '/'
            · rw [if_pos h2] at hs
              rw [← (List.cons.inj hs).1]; simp
            · rw [if_neg h2] at hs
              split at hs <;> · rw [← (List.cons.inj hs).1]; simpa using he
          · exact ih c hc
    · rw [if_neg hd]
      cases hs : splitPath r with
      | nil => simp
      | cons x xs => rw [hs] at ih; simpa using ih

theorem splitPath_head (p : Name) : ∃ x xs, splitPath p = x :: xs ∧ (x.head? = some '_' ↔ p.head? = some '_') := by
  cases p with
  | nil => exact ⟨[], [], rfl, by simp⟩
  | cons c r =>
    simp only [splitPath]
    by_cases hc : c = '/'
    · subst hc
      rw [if_pos rfl]
      exact ⟨_, _, rfl, by simp⟩
    · rw [if_neg hc]
      cases splitPath r with
      | nil => exact ⟨_, _, rfl, by simp⟩
      | cons x xs => exact ⟨_, _, rfl, by simp⟩

theorem map_escName_self {l : List Name} (h : ∀ c ∈ l, c.head? ≠ some '_') : l.map escName = l := by
  induction l with
  | nil => rfl
  | cons c l ih =>
    rw [List.map_cons, ih (fun d hd => h d (List.mem_cons_of_mem _ hd)), escName, if_neg (h c (List.mem_cons_self))]

theorem splitPath_remap {p n : Name} (h : ¬ InnerUnderscore p) (hn : nameRemap p = .ok n) :
    splitPath n = (splitPath p).map escName := by
  obtain ⟨x, xs, e, hx⟩ := splitPath_head p
  have ht := splitPath_tail p h
  rw [e, List.tail_cons] at ht
  unfold nameRemap at hn
  by_cases e0 : p = []
  · rw [if_pos e0] at hn; cases hn
  rw [if_neg e0] at hn
  by_cases hu : p.head? = some '_'
  · rw [if_pos hu] at hn; cases hn
    simp only [splitPath, if_neg (show ('_' : Char) ≠ '/' by decide), e]
    rw [List.map_cons, map_escName_self ht, escName, if_pos (hx.2 hu)]
  · rw [if_neg hu] at hn; cases hn
    rw [e, List.map_cons, map_escName_self ht, escName, if_neg (fun q => hu (hx.1 q))]

theorem pathParts_remap {p n : Name} (h : ¬ InnerUnderscore p) (hn : nameRemap p = .ok n) :
    pathParts n = (pathParts p).map escName := by
  unfold pathParts
  rw [splitPath_remap h hn, List.filter_map]
  congr 1
  apply List.filter_congr
  intro c _
  simp only [Function.comp, escName]
  by_cases hc : c.head? = some '_'
  · have h1 : c ≠ [] := by rintro rfl; simp at hc
    have h2 : c ≠ ['.'] := by rintro rfl; simp at hc
    simp [hc, h1, h2]
  · simp [hc]

theorem remap_start {p n : Name} (hn : nameRemap p = .ok n) (loc : Nat) : pathStart loc n = pathStart loc p ∧ n ≠ [] ∧ p ≠ [] := by
  unfold nameRemap at hn
  by_cases e0 : p = []
  · rw [if_pos e0] at hn; cases hn
  rw [if_neg e0] at hn
  by_cases hu : p.head? = some '_'
  · rw [if_pos hu] at hn; cases hn
    refine ⟨?_, by simp, e0⟩
    unfold pathStart
    rw [hu]; simp
  · rw [if_neg hu] at hn; cases hn
    exact ⟨rfl, e0, e0⟩

/-! ### Order of names -/

theorem nameLe_esc (a b : Name) : nameLe (escName a) (escName b) = nameLe a b := by
  cases a with
  | nil => simp [escName, nameLe]
  | cons x xs =>
    cases b with
    | nil => by_cases hx : x = '_' <;> simp [escName, nameLe, hx]
    | cons y ys =>
      by_cases hx : x = '_' <;> by_cases hy : y = '_'
      · subst hx; subst hy; simp [escName, nameLe]
      · subst hx
        have : y.toNat ≠ '_'.toNat := fun e => hy (Char.toNat_inj.1 e)
        simp only [escName, List.head?_cons, if_true, Option.some.injEq, if_neg hy, nameLe]
        split
        · rfl
        · split
          · rfl
          · omega
      · subst hy
        have : x.toNat ≠ '_'.toNat := fun e => hx (Char.toNat_inj.1 e)
        simp only [escName, List.head?_cons, if_true, Option.some.injEq, if_neg hx, nameLe]
        split
        · rfl
        · split
          · rfl
          · omega
      · simp [escName, hx, hy]

theorem insertName_esc (n : Name) (l : List Name) : insertName (escName n) (l.map escName) = (insertName n l).map escName := by
  induction l with
  | nil => rfl
  | cons m ms ih =>
    simp only [List.map_cons, insertName, nameLe_esc]
    split
    · rfl
    · rw [ih]; rfl

theorem sortNames_esc (l : List Name) : sortNames (l.map escName) = (sortNames l).map escName := by
  induction l with
  | nil => rfl
  | cons n l ih => rw [List.map_cons, sortNames, ih, insertName_esc]; rfl

theorem insertName_hidden {x : Name} (hx : nameShown x = none) (l : List Name) :
    (insertName x l).filterMap nameShown = l.filterMap nameShown := by
  induction l with
  | nil => simp [insertName, hx]
  | cons m ms ih =>
    simp only [insertName]
    split
    · simp [hx]
    · simp only [List.filterMap_cons, ih]

theorem filterMap_shown (l : List Name) : (l.map escName).filterMap nameShown = l := by
  induction l with
  | nil => rfl
  | cons n l ih => simp [nameShown_esc, ih]

/-! ### The relation between the two files -/

/-- The stored form of a link. -/
def escLink (l : TLink) : TLink := ⟨l.group, escName l.name, l.target⟩

/-- The tree of a log-based file and the tree an ordinary file would have. -/
structure TreeRel (s p : Tree) : Prop where
  next : s.next = p.next
  big : 1 < p.next
  links : s.links = ⟨0, "_LOG".toList, 1⟩ :: p.links.map escLink
  target : ∀ l ∈ p.links, l.target ≠ 1
  kinds : ∀ o, o ≠ 1 → s.kind o = p.kind o

/-- The same with the handles. -/
structure TRel (s p : TState) : Prop where
  tree : TreeRel s.tree p.tree
  handles : s.handles = p.handles
  user : ∀ o ∈ p.handles, o ≠ 1

theorem find_esc (ls : List TLink) (g : Nat) (c : Name) :
    (ls.map escLink).find? (fun l => l.group = g ∧ l.name = escName c) =
      (ls.find? (fun l => l.group = g ∧ l.name = c)).map escLink := by
  induction ls with
  | nil => rfl
  | cons l ls ih =>
    rw [List.map_cons, List.find?_cons, List.find?_cons, ih]
    by_cases h : l.group = g ∧ l.name = c
    · have h' : (escLink l).group = g ∧ (escLink l).name = escName c := ⟨h.1, by rw [← h.2]; rfl⟩
      simp only [decide_eq_true h, decide_eq_true h', Option.map_some]
    · have h' : ¬ ((escLink l).group = g ∧ (escLink l).name = escName c) := fun q => h ⟨q.1, escName_inj q.2⟩
      simp only [decide_eq_false h, decide_eq_false h']

theorem TreeRel.look {s p : Tree} (r : TreeRel s p) (g : Nat) (c : Name) : s.look g (escName c) = p.look g c := by
  unfold Tree.look
  rw [r.links, List.find?_cons_of_neg, find_esc, Option.map_map]
  · rfl
  · simp only [decide_eq_true_eq, not_and]
    exact fun _ e => escName_ne_log c e.symm

theorem TreeRel.walk {s p : Tree} (r : TreeRel s p) (cs : List Name) : ∀ o, s.walk o (cs.map escName) = p.walk o cs := by
  induction cs with
  | nil => intro o; rfl
  | cons c cs ih =>
    intro o
    simp only [List.map_cons, Tree.walk, r.look, ih]

theorem TreeRel.look_user {s p : Tree} (r : TreeRel s p) {g o : Nat} {c : Name} (h : p.look g c = some o) : o ≠ 1 := by
  unfold Tree.look at h
  obtain ⟨l, hl, rfl⟩ := Option.map_eq_some_iff.1 h
  exact r.target l (List.mem_of_find?_eq_some hl)

theorem TreeRel.walk_user {s p : Tree} (r : TreeRel s p) (cs : List Name) :
    ∀ o o', o ≠ 1 → p.walk o cs = some o' → o' ≠ 1 := by
  induction cs with
  | nil => intro o o' h e; cases e; exact h
  | cons c cs ih =>
    intro o o' _ e
    simp only [Tree.walk] at e
    obtain ⟨m, hm, e⟩ := Option.bind_eq_some_iff.1 e
    exact ih m o' (r.look_user hm) e

theorem start_user {loc : Nat} (h : loc ≠ 1) (p : Name) : pathStart loc p ≠ 1 := by
  unfold pathStart; split <;> omega

theorem TreeRel.find {s p : Tree} (r : TreeRel s p) {q n : Name} (hq : ¬ InnerUnderscore q) (hn : nameRemap q = .ok n) (loc : Nat) :
    s.find loc n = p.find loc q := by
  obtain ⟨h1, h2, h3⟩ := remap_start hn loc
  unfold Tree.find
  rw [if_neg h2, if_neg h3, h1, pathParts_remap hq hn, r.walk]

theorem TreeRel.find_user {s p : Tree} (r : TreeRel s p) {q : Name} {loc o : Nat} (hl : loc ≠ 1) (h : p.find loc q = some o) :
    o ≠ 1 := by
  unfold Tree.find at h
  split at h
  · cases h
  · exact r.walk_user _ _ _ (start_user hl q) h

theorem TreeRel.place {s p : Tree} (r : TreeRel s p) {q n : Name} (hq : ¬ InnerUnderscore q) (hn : nameRemap q = .ok n)
    {loc : Nat} (hl : loc ≠ 1) : s.place loc n = (p.place loc q).map (fun x => (x.1, escName x.2)) := by
  obtain ⟨h1, h2, h3⟩ := remap_start hn loc
  unfold Tree.place
  rw [if_neg h2, if_neg h3, h1, pathParts_remap hq hn, List.getLast?_map]
  cases hg : (pathParts q).getLast? with
  | none => rfl
  | some c =>
    simp only [Option.map_some]
    rw [← List.map_dropLast, r.walk]
    cases hw : p.walk (pathStart loc q) (pathParts q).dropLast with
    | none => rfl
    | some g =>
      have := r.walk_user _ _ _ (start_user hl q) hw
      simp only [Option.bind_some, r.kinds g this]
      split <;> rfl

theorem TreeRel.link {s p : Tree} (r : TreeRel s p) (pl : Nat × Name) {o : Nat} (ho : o ≠ 1) :
    (s.link (pl.1, escName pl.2) o = none ∧ p.link pl o = none) ∨
    (∃ s' p', s.link (pl.1, escName pl.2) o = some s' ∧ p.link pl o = some p' ∧ TreeRel s' p' ∧ s'.kinds = s.kinds ∧
      p'.kinds = p.kinds) := by
  unfold Tree.link
  simp only [r.look]
  by_cases h : (p.look pl.1 pl.2).isSome = true
  · exact Or.inl ⟨if_pos h, if_pos h⟩
  · refine Or.inr ⟨_, _, if_neg h, if_neg h, ⟨r.next, r.big, ?_, ?_, r.kinds⟩, rfl, rfl⟩
    · simp only [r.links, List.cons_append, List.map_append, List.map_cons, List.map_nil, escLink]
    · intro l hl
      rcases List.mem_append.1 hl with hl | hl
      · exact r.target l hl
      · rw [List.mem_singleton.1 hl]; exact ho

theorem TreeRel.unlink {s p : Tree} (r : TreeRel s p) (pl : Nat × Name) :
    TreeRel (s.unlink (pl.1, escName pl.2)) (p.unlink pl) := by
  refine ⟨r.next, r.big, ?_, fun l hl => r.target l (List.mem_filter.1 hl).1, r.kinds⟩
  unfold Tree.unlink
  simp only [r.links]
  rw [List.filter_cons_of_pos, List.filter_map]
  · congr 2
    apply List.filter_congr
    intro l _
    have e : (escName l.name = escName pl.2) = (l.name = pl.2) := propext ⟨escName_inj, fun e => by rw [e]⟩
    simp only [Function.comp, escLink, e]
  · simp only [decide_eq_true_eq, not_and]
    exact fun _ e => escName_ne_log _ e.symm

theorem kind_append (t : Tree) (ks : List (Nat × TKind)) (o : Nat) :
    (Tree.mk (t.kinds ++ ks) t.links t.next).kind o = (t.kind o).or (((ks.find? (fun k => k.1 = o)).map (·.2))) := by
  unfold Tree.kind
  simp only [List.find?_append]
  cases List.find? (fun k => decide (k.1 = o)) t.kinds <;> simp

/-! ### Each operation -/

/-- Two outcomes that are the same up to a relation. -/
def ResRel {α β : Type} (R : α → β → Prop) : Res α → Res β → Prop
  | .ok a, .ok b => R a b
  | .err, .err => True
  | _, _ => False

theorem ResRel.bind {α β γ δ : Type} {R : α → β → Prop} {S : γ → δ → Prop} {x : Res α} {y : Res β} {f : α → Res γ} {g : β → Res δ}
    (h : ResRel R x y) (k : ∀ a b, R a b → ResRel S (f a) (g b)) : ResRel S (x >>= f) (y >>= g) := by
  cases x <;> cases y <;> simp only [ResRel] at h
  · exact k _ _ h
  · trivial

theorem TRel.at {s p : TState} (r : TRel s p) (h : Nat) : ResRel (fun a b => a = b ∧ b ≠ 1) (s.at h) (p.at h) := by
  unfold TState.at
  rw [r.handles]
  cases e : p.handles[h]? with
  | none => trivial
  | some o => exact ⟨rfl, r.user o (List.mem_of_getElem? e)⟩

theorem TRel.locs {s p : TState} (r : TRel s p) (a b : Option Nat) :
    ResRel (fun x y => x = y ∧ y.1 ≠ 1 ∧ y.2 ≠ 1) (s.locs a b) (p.locs a b) := by
  unfold TState.locs
  generalize orElseLoc a b = x
  generalize orElseLoc b a = y
  cases x with
  | none => trivial
  | some x =>
    cases y with
    | none => trivial
    | some y =>
      refine (r.at x).bind ?_
      rintro a _ ⟨rfl, ha⟩
      refine (r.at y).bind ?_
      rintro b _ ⟨rfl, hb⟩
      exact ⟨rfl, ha, hb⟩

theorem given_rel (q : Name) :
    ResRel (fun n m => m = q ∧ nameRemap q = .ok n) (TNames.log.given q) (TNames.plain.given q) := by
  simp only [TNames.log, TNames.plain, nameRemap]
  by_cases e : q = []
  · rw [if_pos e, if_pos e]; trivial
  · rw [if_neg e, if_neg e]
    split <;> exact ⟨rfl, rfl⟩

theorem raw_rel {q : Name} (h : Spec.PlainPath q) :
    ResRel (fun n m => m = q ∧ nameRemap q = .ok n) (TNames.log.raw q) (TNames.plain.raw q) := by
  simp only [TNames.log, TNames.plain, nameRemap]
  by_cases e : q = []
  · rw [if_pos e, if_pos e]; trivial
  · rw [if_neg e, if_neg e, if_neg h.2]; exact ⟨rfl, rfl⟩

theorem TreeRel.create {s p : Tree} (r : TreeRel s p) {q n : Name} (hq : ¬ InnerUnderscore q) (hn : nameRemap q = .ok n)
    {loc : Nat} (hl : loc ≠ 1) (k : TKind) :
    ResRel (fun x y => x.2 = y.2 ∧ y.2 ≠ 1 ∧ TreeRel x.1 y.1) (s.create loc n k) (p.create loc q k) := by
  unfold Tree.create
  rw [r.place hq hn hl]
  cases p.place loc q with
  | none => trivial
  | some pl =>
    simp only [Option.map_some]
    have hb := r.big
    rw [r.next]
    rcases r.link pl (o := p.next) (by omega) with ⟨h1, h2⟩ | ⟨s', p', h1, h2, r', k1, k2⟩
    · simp only [h1, h2]; trivial
    · simp only [h1, h2]
      refine ⟨rfl, by simp only; omega, ⟨rfl, by simp only; omega, r'.links, r'.target, ?_⟩⟩
      intro o ho
      have e := r'.kinds o ho
      unfold Tree.kind at e ⊢
      simp only [List.find?_append]
      cases h3 : List.find? (fun k => decide (k.1 = o)) s'.kinds <;>
        cases h4 : List.find? (fun k => decide (k.1 = o)) p'.kinds <;> rw [h3, h4] at e <;> simp_all

theorem TreeRel.open {s p : Tree} (r : TreeRel s p) {q n : Name} (hq : ¬ InnerUnderscore q) (hn : nameRemap q = .ok n)
    {loc : Nat} (hl : loc ≠ 1) (k : Option TKind) :
    ResRel (fun x y => x = y ∧ y ≠ 1) (s.open loc n k) (p.open loc q k) := by
  unfold Tree.open
  rw [r.find hq hn]
  cases h : p.find loc q with
  | none => trivial
  | some o =>
    have ho := r.find_user hl h
    cases k with
    | none => exact ⟨rfl, ho⟩
    | some k =>
      simp only [r.kinds o ho]
      split
      · exact ⟨rfl, ho⟩
      · trivial

theorem TreeRel.relink {s p : Tree} (r : TreeRel s p) {q n q' n' : Name} (hq : ¬ InnerUnderscore q) (hn : nameRemap q = .ok n)
    (hq' : ¬ InnerUnderscore q') (hn' : nameRemap q' = .ok n') {a b : Nat} (ha : a ≠ 1) (hb : b ≠ 1) (keep : Bool) :
    ResRel TreeRel (s.relink keep a n b n') (p.relink keep a q b q') := by
  unfold Tree.relink
  rw [r.place hq hn ha, r.place hq' hn' hb]
  cases p.place a q with
  | none => trivial
  | some x =>
    cases p.place b q' with
    | none => trivial
    | some y =>
      simp only [Option.map_some, r.look]
      cases hl : p.look x.1 x.2 with
      | none => trivial
      | some o =>
        simp only
        rcases r.link y (r.look_user hl) with ⟨h1, h2⟩ | ⟨s', p', h1, h2, r', _⟩
        · simp only [h1, h2]; trivial
        · simp only [h1, h2]
          cases keep
          · exact r'.unlink x
          · exact r'

theorem TreeRel.hard {s p : Tree} (r : TreeRel s p) {q n q' n' : Name} (hq : ¬ InnerUnderscore q) (hn : nameRemap q = .ok n)
    (hq' : ¬ InnerUnderscore q') (hn' : nameRemap q' = .ok n') {a b : Nat} (ha : a ≠ 1) (hb : b ≠ 1) :
    ResRel TreeRel (s.hard a n b n') (p.hard a q b q') := by
  unfold Tree.hard
  rw [r.find hq hn, r.place hq' hn' hb]
  cases h : p.find a q with
  | none => trivial
  | some o =>
    cases p.place b q' with
    | none => trivial
    | some y =>
      simp only [Option.map_some]
      rcases r.link y (r.find_user ha h) with ⟨h1, h2⟩ | ⟨s', p', h1, h2, r', _⟩
      · simp only [h1, h2]; trivial
      · simp only [h1, h2]; exact r'

theorem links_in {s p : Tree} (r : TreeRel s p) (g : Nat) :
    (s.links.filter (fun l => l.group = g)).map (·.name) =
      (if g = 0 then ["_LOG".toList] else []) ++ ((p.links.filter (fun l => l.group = g)).map (·.name)).map escName := by
  have h : ((p.links.map escLink).filter (fun l => l.group = g)).map (·.name) =
      ((p.links.filter (fun l => l.group = g)).map (·.name)).map escName := by
    rw [List.filter_map, List.map_map, List.map_map]
    rfl
  rw [r.links]
  by_cases hg : g = 0
  · subst hg
    rw [List.filter_cons_of_pos (by simp), List.map_cons, h, if_pos rfl]; rfl
  · rw [List.filter_cons_of_neg (by simpa using fun e => hg e.symm), h, if_neg hg]; rfl

theorem listing_shown {s p : Tree} (r : TreeRel s p) (g : Nat) (o : TOrder) :
    (s.listing g o).filterMap nameShown = p.listing g o := by
  cases o with
  | created =>
    simp only [Tree.listing, links_in r]
    by_cases hg : g = 0
    · rw [if_pos hg, List.filterMap_append, filterMap_shown]; rfl
    · rw [if_neg hg, List.nil_append, filterMap_shown]
  | name =>
    simp only [Tree.listing, links_in r]
    by_cases hg : g = 0
    · rw [if_pos hg, List.singleton_append, sortNames, sortNames_esc, insertName_hidden (by decide), filterMap_shown]
    · rw [if_neg hg, List.nil_append, sortNames_esc, filterMap_shown]

/-- One operation has the same outcome on both files and keeps them related. -/
theorem tree_step {s p : TState} (r : TRel s p) {op : TOp} (h : Spec.FineOp op) :
    ResRel (fun x y => TRel x.1 y.1 ∧ x.2 = y.2) (s.step .log op) (p.step .plain op) := by
  cases op with
  | create l q k =>
    refine (r.at l).bind ?_
    rintro loc _ ⟨rfl, hl⟩
    refine (given_rel _).bind ?_
    rintro n m ⟨rfl, hn⟩
    refine (r.tree.create h hn hl k).bind ?_
    rintro x y ⟨e, hy, rt⟩
    refine ⟨⟨rt, by simp only [r.handles, e], ?_⟩, by simp only [e]⟩
    intro o ho
    rcases List.mem_append.1 ho with ho | ho
    · exact r.user o ho
    · rw [List.mem_singleton.1 ho]; exact hy
  | «open» l q k =>
    refine (r.at l).bind ?_
    rintro loc _ ⟨rfl, hl⟩
    refine (given_rel _).bind ?_
    rintro n m ⟨rfl, hn⟩
    refine (r.tree.open h hn hl k).bind ?_
    rintro x _ ⟨rfl, hy⟩
    refine ⟨⟨r.tree, by simp only [r.handles], ?_⟩, rfl⟩
    intro o ho
    rcases List.mem_append.1 ho with ho | ho
    · exact r.user o ho
    · rw [List.mem_singleton.1 ho]; exact hy
  | «exists» l q =>
    refine (r.at l).bind ?_
    rintro loc _ ⟨rfl, hl⟩
    refine (given_rel _).bind ?_
    rintro n m ⟨rfl, hn⟩
    have : s.tree.has loc n = p.tree.has loc m := by
      unfold Tree.has
      rw [r.tree.place h hn hl]
      cases p.tree.place loc m with
      | none => rfl
      | some pl => simp only [Option.map_some, r.tree.look]
    rw [this]
    unfold Tree.has
    cases p.tree.place loc m with
    | none => trivial
    | some pl => exact ⟨r, rfl⟩
  | delete l q =>
    refine (r.at l).bind ?_
    rintro loc _ ⟨rfl, hl⟩
    refine (given_rel _).bind ?_
    rintro n m ⟨rfl, hn⟩
    have : ResRel TreeRel (s.tree.delete loc n) (p.tree.delete loc m) := by
      unfold Tree.delete
      rw [r.tree.place h hn hl]
      cases p.tree.place loc m with
      | none => trivial
      | some pl =>
        simp only [Option.map_some, r.tree.look]
        split
        · exact r.tree.unlink pl
        · trivial
    refine this.bind ?_
    intro x y rt
    exact ⟨⟨rt, r.handles, r.user⟩, rfl⟩
  | move a q b q' =>
    obtain ⟨h1, h2, h3, h4⟩ := h
    simp only [TState.step]
    rw [if_neg (by tauto), if_neg (by simp [TNames.plain])]
    refine (r.locs a b).bind ?_
    rintro l _ ⟨rfl, ha, hb⟩
    refine (given_rel _).bind ?_
    rintro n m ⟨rfl, hn⟩
    refine (given_rel _).bind ?_
    rintro n' m' ⟨rfl, hm⟩
    refine (r.tree.relink h3 hn h4 hm ha hb false).bind ?_
    intro x y rt
    exact ⟨⟨rt, r.handles, r.user⟩, rfl⟩
  | copy a q b q' =>
    obtain ⟨h3, h4⟩ := h
    refine (r.locs a b).bind ?_
    rintro l _ ⟨rfl, ha, hb⟩
    refine (raw_rel h3).bind ?_
    rintro n m ⟨rfl, hn⟩
    refine (raw_rel h4).bind ?_
    rintro n' m' ⟨rfl, hm⟩
    refine (r.tree.relink h3.1 hn h4.1 hm ha hb true).bind ?_
    intro x y rt
    exact ⟨⟨rt, r.handles, r.user⟩, rfl⟩
  | hard a q b q' =>
    obtain ⟨h3, h4⟩ := h
    refine (r.locs a b).bind ?_
    rintro l _ ⟨rfl, ha, hb⟩
    refine (raw_rel h3).bind ?_
    rintro n m ⟨rfl, hn⟩
    refine (raw_rel h4).bind ?_
    rintro n' m' ⟨rfl, hm⟩
    refine (r.tree.hard h3.1 hn h4.1 hm ha hb).bind ?_
    intro x y rt
    exact ⟨⟨rt, r.handles, r.user⟩, rfl⟩
  | list l q o =>
    refine (r.at l).bind ?_
    rintro loc _ ⟨rfl, hl⟩
    refine (given_rel _).bind ?_
    rintro n m ⟨rfl, hn⟩
    have : ResRel (fun x y => x.filterMap nameShown = y) (s.tree.iterate loc n o) (p.tree.iterate loc m o) := by
      unfold Tree.iterate
      rw [r.tree.find h hn]
      cases hf : p.tree.find loc m with
      | none => trivial
      | some g =>
        simp only [r.tree.kinds g (r.tree.find_user hl hf)]
        split
        · exact listing_shown r.tree g o
        · trivial
    refine this.bind ?_
    intro x y e
    refine ⟨r, ?_⟩
    simp only [TNames.log, TNames.plain, e, List.filterMap_some]
  | count l => exact h.elim

theorem tree_run {s p : TState} (r : TRel s p) (ops : List TOp) (h : ∀ op ∈ ops, Spec.FineOp op) :
    TRel (s.run .log ops).1 (p.run .plain ops).1 ∧ (s.run .log ops).2 = (p.run .plain ops).2 := by
  induction ops generalizing s p with
  | nil => exact ⟨r, rfl⟩
  | cons op ops ih =>
    have hs := tree_step r (h op List.mem_cons_self)
    have ho := fun o ho => h o (List.mem_cons_of_mem _ ho)
    simp only [TState.run]
    cases e1 : s.step .log op <;> cases e2 : p.step .plain op <;> rw [e1, e2] at hs <;> simp only [ResRel] at hs
    · obtain ⟨r', e⟩ := hs
      obtain ⟨a, b⟩ := ih r' ho
      exact ⟨a, by simp only [b, e]⟩
    · obtain ⟨a, b⟩ := ih r ho
      exact ⟨a, by simp only [b]⟩

theorem tree_start : TRel .log .plain := by
  refine ⟨⟨rfl, by decide, rfl, by simp [TState.plain], ?_⟩, rfl, by simp [TState.plain]⟩
  intro o ho
  by_cases h0 : o = 0
  · subst h0; rfl
  · have e0 : ¬ 0 = o := fun e => h0 e.symm
    have e1 : ¬ 1 = o := fun e => ho e.symm
    simp [Tree.kind, TState.log, TState.plain, e0, e1]

/-! ### C59 -/

/-- C59 for names that need no mapping inside a path: every sequence of operations on a new log-based file tells the user
exactly what it tells on an ordinary file. -/
theorem C59_same_partial (ops : List TOp) (h : ∀ op ∈ ops, Spec.FineOp op) :
    (TState.log.run .log ops).2 = (TState.plain.run .plain ops).2 := (tree_run tree_start ops h).2

/-- C59: these operations never give the user a handle to the group of the log and never remove it. -/
theorem C59_log_safe_partial (ops : List TOp) (h : ∀ op ∈ ops, Spec.FineOp op) :
    1 ∉ (TState.log.run .log ops).1.handles ∧ (TState.log.run .log ops).1.tree.look 0 "_LOG".toList = some 1 := by
  obtain ⟨r, _⟩ := tree_run tree_start ops h
  refine ⟨?_, ?_⟩
  · rw [r.handles]
    exact fun h1 => r.user 1 h1 rfl
  · unfold Tree.look
    rw [r.tree.links, List.find?_cons_of_pos (by simp)]
    rfl

/-- C59 is violated by counting: after any such operations `H5Gget_info` reports one link too many for the root group, and the
right number for every other group. -/
theorem C59_count_violated (ops : List TOp) (h : ∀ op ∈ ops, Spec.FineOp op) (n m : Nat) :
    (∀ s, (TState.plain.run .plain ops).1.step .plain (.count n) = .ok (s, .num m) →
      ∃ s' k, (TState.log.run .log ops).1.step .log (.count n) = .ok (s', .num k) ∧
        (k = if (TState.plain.run .plain ops).1.handles[n]? = some 0 then m + 1 else m)) := by
  obtain ⟨r, _⟩ := tree_run tree_start ops h
  generalize (TState.plain.run .plain ops).1 = p at r ⊢
  generalize (TState.log.run .log ops).1 = s at r ⊢
  intro s0 e
  simp only [TState.step] at e
  obtain ⟨g, e1, e⟩ := Res.bind_ok e
  obtain ⟨k, e2, e⟩ := Res.bind_ok e
  cases e
  have hg : p.handles[n]? = some g := by
    unfold TState.at at e1
    split at e1 <;> cases e1
    assumption
  have hu : g ≠ 1 := r.user g (List.mem_of_getElem? hg)
  have e1' : s.at n = .ok g := by unfold TState.at; rw [r.handles, hg]
  unfold Tree.nlinks at e2
  split at e2
  · rename_i hk
    cases e2
    refine ⟨s, (s.tree.links.filter (fun l => l.group = g)).length, ?_, ?_⟩
    · simp only [TState.step, e1', Res.ok_bind, Tree.nlinks, r.tree.kinds g hu, if_pos hk]; rfl
    · have := congrArg List.length (links_in r.tree g)
      simp only [List.length_map, List.length_append] at this
      rw [this, hg]
      by_cases h0 : g = 0
      · subst h0; simp; omega
      · simp [h0]
  · cases e2

/-- What an operation of a sequence tells, on both kinds of files. -/
def bothRuns (ops : List TOp) : List (Res TOut) × List (Res TOut) :=
  ((TState.log.run .log ops).2, (TState.plain.run .plain ops).2)

/-- A session with groups, names that start with underscores, moves, links and listings. -/
def treeOps : List TOp :=
  [.create 0 "g".toList .group, .create 1 "_x".toList .dataset, .create 0 "_LOG".toList .group, .create 3 "_ld_0".toList .dataset,
   .move (some 1) "_x".toList (some 0) "_y".toList, .list 0 "/".toList .name,
   .hard none "/g".toList (some 0) "h/".toList, .copy (some 0) "h".toList none "g/i".toList, .list 0 "h/i".toList .created,
   .delete 0 "_y".toList, .exists 0 "_y".toList, .list 0 ".".toList .created]

instance (p : Name) : Decidable (InnerUnderscore p) := inferInstanceAs (Decidable (_ <:+: _))

example : (∀ op ∈ treeOps, Spec.FineOp op) := by
  simp only [treeOps, List.mem_cons, List.not_mem_nil, or_false, forall_eq_or_imp, forall_eq, Spec.FineOp,
    Spec.PlainInside, Spec.PlainPath]
  decide +kernel

example : (bothRuns (treeOps)).1 =
    [.ok (.obj 2), .ok (.obj 3), .ok (.obj 4), .ok (.obj 5), .ok .done, .ok (.names ["_LOG".toList, "_y".toList, "g".toList]), .ok .done,
      .ok .done, .ok (.names ["i".toList]), .ok .done, .ok (.yes false),
      .ok (.names ["g".toList, "_LOG".toList, "h".toList])] := by decide +kernel

/-- C59 is violated for names inside a path that start with an underscore: dataset "_x" of group "g" is not found as "g/_x";
and a dataset created as "g/_y" is not listed. -/
theorem C59_inner_violated :
    bothRuns [.create 0 "g".toList .group, .create 1 "_x".toList .dataset, .open 0 "g/_x".toList none] =
      ([.ok (.obj 2), .ok (.obj 3), .err], [.ok (.obj 2), .ok (.obj 3), .ok (.obj 3)]) ∧
    bothRuns [.create 0 "g".toList .group, .create 0 "g/_y".toList .dataset, .list 0 "g".toList .name] =
      ([.ok (.obj 2), .ok (.obj 3), .ok (.names [])], [.ok (.obj 2), .ok (.obj 3), .ok (.names ["_y".toList])]) := by
  decide +kernel

/-- C59 is violated by absolute paths: the user can delete the log. -/
theorem C59_delete_log_violated :
    bothRuns [.delete 0 "/_LOG".toList] = ([.ok .done], [.err]) ∧
    (TState.log.run .log [.delete 0 "/_LOG".toList]).1.tree.look 0 "_LOG".toList = none := by decide +kernel

/-- C59 is violated by `H5L_SAME_LOC`: every move that uses it dereferences a null pointer. -/
theorem C59_same_loc_violated (s : TState) (a : Option Nat) (p q : Name) :
    s.step .log (.move a p none q) = .ub ∧ s.step .log (.move none p a q) = .ub := by
  simp [TState.step, TNames.log]

/-- The same move is fine on an ordinary file. -/
example : bothRuns [.create 0 "a".toList .group, .move (some 0) "a".toList none "b".toList] =
    ([.ok (.obj 2), .ub], [.ok (.obj 2), .ok .done]) := by decide +kernel

/-- C59 is violated by copying and creating links: "_a" cannot be copied, and a link created as "_b" does not exist as "_b" and
is not listed. -/
theorem C59_link_violated :
    bothRuns [.create 0 "_a".toList .group, .copy (some 0) "_a".toList (some 0) "b".toList] =
      ([.ok (.obj 2), .err], [.ok (.obj 2), .ok .done]) ∧
    bothRuns [.create 0 "a".toList .group, .hard (some 0) "a".toList (some 0) "_b".toList, .exists 0 "_b".toList,
        .list 0 "/".toList .created] =
      ([.ok (.obj 2), .ok .done, .ok (.yes false), .ok (.names ["a".toList])],
       [.ok (.obj 2), .ok .done, .ok (.yes true), .ok (.names ["a".toList, "_b".toList])]) := by decide +kernel

theorem joinPath_head (c : Name) (cs : List Name) (hc : c ≠ []) : (joinPath (c :: cs)).head? = c.head? := by
  cases cs with
  | nil => rfl
  | cons d cs =>
    cases c with
    | nil => exact absurd rfl hc
    | cons x xs => rfl

theorem joinPath_len (cs : List Name) : (joinPath cs).length ≤ (joinPath (cs.map escName)).length := by
  induction cs with
  | nil => simp
  | cons c cs ih =>
    have hc : c.length ≤ (escName c).length := by unfold escName; split <;> simp
    cases cs with
    | nil => simpa [joinPath] using hc
    | cons d cs =>
      simp only [List.map_cons, joinPath, List.length_append, List.length_cons] at ih ⊢
      omega

theorem joinPath_esc_eq (cs : List Name) : joinPath (cs.map escName) = joinPath cs ↔ ∀ c ∈ cs, c.head? ≠ some '_' := by
  constructor
  · intro h
    have hl := congrArg List.length h
    clear h
    induction cs with
    | nil => simp
    | cons c cs ih =>
      have hc : c.length ≤ (escName c).length := by unfold escName; split <;> simp
      have hu : c.head? = some '_' → c.length < (escName c).length := by
        intro hu; unfold escName; rw [if_pos hu]; simp
      cases cs with
      | nil =>
        simp only [List.map_cons, List.map_nil, joinPath] at hl
        intro d hd
        rw [List.mem_singleton.1 hd]
        intro q; have := hu q; omega
      | cons e cs =>
        have hj := joinPath_len (e :: cs)
        simp only [List.map_cons, joinPath, List.length_append, List.length_cons] at hl ih hj
        intro d hd
        rcases List.mem_cons.1 hd with rfl | hd
        · intro q; have := hu q; omega
        · exact ih (by omega) d hd
  · intro h
    rw [map_escName_self h]

theorem joinPath_eq : ∀ (cs : List Name), joinPath cs = List.intercalate ['/'] cs
  | [] => rfl
  | [c] => by simp [joinPath, List.intercalate]
  | c :: d :: cs => by
    rw [joinPath, joinPath_eq (d :: cs)]
    simp [List.intercalate, List.intersperse]

/-- C59: a recursive visit reports the path the user knows, with slashes between the components, exactly when no component after the first
starts with an underscore. -/
theorem C59_visit_partial (c : Name) (cs : List Name) (hc : c ≠ []) :
    nameShown (joinPath ((c :: cs).map escName)) = some (List.intercalate ['/'] (c :: cs)) ↔ ∀ d ∈ cs, d.head? ≠ some '_' := by
  rw [← joinPath_eq]
  have hm : (c :: cs).map escName = escName c :: cs.map escName := rfl
  have he : escName c ≠ [] := by unfold escName; split <;> simp [hc]
  have key : ∀ x y : Name, joinPath (x :: cs.map escName) = joinPath (x :: cs) ↔ ∀ d ∈ cs, d.head? ≠ some '_' := by
    intro x _
    cases cs with
    | nil => simp [joinPath]
    | cons e cs =>
      rw [← joinPath_esc_eq]
      simp only [List.map_cons, joinPath, List.append_cancel_left_eq, List.cons.injEq, true_and]
  rw [hm, ← key c c]
  by_cases hu : c.head? = some '_'
  · have e : escName c = '_' :: c := by unfold escName; rw [if_pos hu]
    have e2 : ∀ ds, joinPath ((('_' : Char) :: c) :: ds) = '_' :: joinPath (c :: ds) := by
      intro ds; cases ds <;> rfl
    rw [e, e2]
    unfold nameShown
    simp [joinPath_head _ _ hc, hu]
  · have e : escName c = c := by unfold escName; rw [if_neg hu]
    rw [e]
    unfold nameShown
    rw [joinPath_head _ _ hc, if_neg hu]
    simp

example : nameShown (joinPath (["g".toList, "_x".toList].map escName)) = some "g/__x".toList := by decide +kernel

/-! ### Order -/

theorem nameLe_iff : ∀ (a b : Name), nameLe a b = true ↔ a.map Char.toNat ≤ b.map Char.toNat
  | [], b => by simp [nameLe]
  | a :: as, [] => by simp [nameLe]
  | a :: as, b :: bs => by
    rw [nameLe, List.map_cons, List.map_cons, List.cons_le_cons_iff, ← nameLe_iff as bs]
    by_cases h1 : a.toNat < b.toNat
    · simp [h1]
    · by_cases h2 : b.toNat < a.toNat
      · have : a.toNat ≠ b.toNat := by omega
        simp [h1, h2, this]
      · have : a.toNat = b.toNat := by omega
        simp [this]

theorem nameLe_trans {a b c : Name} (h1 : nameLe a b = true) (h2 : nameLe b c = true) : nameLe a c = true := by
  rw [nameLe_iff] at *
  exact List.le_trans h1 h2

theorem nameLe_of_not {a b : Name} (h : nameLe a b = false) : nameLe b a = true := by
  rw [nameLe_iff]
  rcases List.le_total (a.map Char.toNat) (b.map Char.toNat) with h' | h'
  · rw [(nameLe_iff a b).mpr h'] at h
    cases h
  · exact h'

theorem insertName_sorted (n : Name) : ∀ (l : List Name), l.Pairwise (fun a b => nameLe a b = true) →
    (insertName n l).Pairwise (fun a b => nameLe a b = true)
  | [], _ => by simp [insertName]
  | m :: ms, h => by
    rw [List.pairwise_cons] at h
    unfold insertName
    cases hn : nameLe n m with
    | true =>
      rw [if_pos rfl, List.pairwise_cons, List.pairwise_cons]
      refine ⟨fun x hx => ?_, h.1, h.2⟩
      rcases List.mem_cons.mp hx with rfl | hx
      · exact hn
      · exact nameLe_trans hn (h.1 x hx)
    | false =>
      rw [if_neg (by decide), List.pairwise_cons]
      refine ⟨fun x hx => ?_, insertName_sorted n ms h.2⟩
      have : ∀ (l : List Name), x ∈ insertName n l → x = n ∨ x ∈ l := by
        intro l
        induction l with
        | nil => intro h; simpa [insertName] using h
        | cons k ks ih =>
          intro h
          unfold insertName at h
          split at h
          · rcases List.mem_cons.mp h with h | h
            · exact .inl h
            · exact .inr h
          · rcases List.mem_cons.mp h with h | h
            · exact .inr (by rw [h]; exact List.mem_cons_self)
            · rcases ih h with h | h
              · exact .inl h
              · exact .inr (List.mem_cons_of_mem _ h)
      rcases this ms hx with rfl | hx
      · exact nameLe_of_not hn
      · exact h.1 x hx

theorem sortNames_sorted : ∀ (l : List Name), (sortNames l).Pairwise (fun a b => nameLe a b = true)
  | [] => List.Pairwise.nil
  | n :: l => insertName_sorted n _ (sortNames_sorted l)

/-- C59: whatever the file holds, names listed by name are in increasing order of their characters, as the user sees them. -/
theorem C59_order (s s' : TState) (h : Nat) (p : Name) (l : List Name) (e : s.step .log (.list h p .name) = .ok (s', .names l)) :
    l.Pairwise (fun a b => a.map Char.toNat ≤ b.map Char.toNat) := by
  simp only [TState.step] at e
  obtain ⟨loc, _, e⟩ := Res.bind_ok e
  obtain ⟨n, _, e⟩ := Res.bind_ok e
  obtain ⟨ns, hn, e⟩ := Res.bind_ok e
  simp only [pure, Res.ok.injEq, Prod.mk.injEq, TOut.names.injEq] at e
  rw [← e.2]
  have hs : ns.Pairwise (fun a b => nameLe a b = true) := by
    unfold Tree.iterate at hn
    split at hn
    · cases hn
    · split at hn
      · cases hn
        exact sortNames_sorted _
      · cases hn
  rw [List.pairwise_filterMap]
  refine hs.imp ?_
  intro a b hab x hx y hy
  have esc : ∀ {n m : Name}, nameShown n = some m → n = escName m := by
    intro n m hnm
    unfold nameShown at hnm
    by_cases h1 : n.head? = some '_'
    · by_cases h2 : n.tail.head? = some '_'
      · rw [if_pos h1, if_pos h2] at hnm
        cases hnm
        rw [escName, if_pos h2]
        cases n with
        | nil => cases h1
        | cons d r =>
          cases h1
          rfl
      · rw [if_pos h1, if_neg h2] at hnm
        cases hnm
    · rw [if_neg h1] at hnm
      cases hnm
      rw [escName, if_neg h1]
  rw [← nameLe_iff, ← nameLe_esc, ← esc hx, ← esc hy]
  exact hab

/-- Three names created in another order; one has an underscore. -/
example : (TState.log.run .log [.create 0 "b".toList .group, .create 0 "_a".toList .group, .create 0 "A".toList .group,
    .list 0 "/".toList .name]).2.getLast? = some (.ok (.names ["A".toList, "_a".toList, "b".toList])) := by decide +kernel

end Verif.Props
