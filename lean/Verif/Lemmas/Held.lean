import Verif.Model.Held
import Mathlib.Data.List.Perm.Basic
import Mathlib.Data.List.Perm.Subperm

/-
What is held, and by whom, after each function of `Model/Held.lean`.
-/

namespace Verif.Held

/-- What a request for a read refers to. -/
def RQ.toks (r : RQ) : List Tok := r.req :: r.sel :: (r.xbuf.toList ++ r.ptype.toList ++ r.dtype.toList ++ r.mtype.toList)

/-- What the file object refers to, apart from queued reads. -/
def File.toks (f : File) : List Tok :=
  f.wq.flatMap (fun w => w.req :: w.bufs) ++ f.done.map (·.req) ++ f.mq.flatMap (fun m => m.w.req :: m.w.bufs) ++ f.keys ++
    f.idx

/-- Everything that is held belongs to a variable, to the file object, or to `X`. -/
def Good (s : St) (X : List Tok) : Prop := s.held.Perm (s.loc ++ (s.file.toks ++ X))

def At (s : St) (X : List Tok) (ks : List Kind) : Prop := Good s X ∧ s.loc.map (·.kind) = ks

def wp {α : Type} (m : M α) (s : St) (Q : Out α → St → Prop) : Prop := ∀ o ∈ m s, Q o.1 o.2

theorem wp_pure {α : Type} {a : α} {s : St} {Q : Out α → St → Prop} (h : Q (.ok a) s) : wp (pure a : M α) s Q := by
  intro o ho
  simp [pure] at ho
  rw [ho]
  exact h

theorem wp_bind {α β : Type} {m : M α} {f : α → M β} {s : St} {Q : Out β → St → Prop}
    (h : wp m s fun o s' => match o with | .ok a => wp (f a) s' Q | .thrown => Q .thrown s' | .ub => Q .ub s') :
    wp (m >>= f) s Q := by
  intro o ho
  obtain ⟨o', h1, h2⟩ := List.mem_flatMap.mp (show o ∈ (m s).flatMap _ from ho)
  have := h o' h1
  obtain ⟨x, s'⟩ := o'
  cases x with
  | ok a => exact this o h2
  | thrown => simp at h2; rw [h2]; exact this
  | ub => simp at h2; rw [h2]; exact this

theorem wp_mono {α : Type} {m : M α} {s : St} {Q R : Out α → St → Prop} (h : wp m s Q) (hq : ∀ o s', Q o s' → R o s') : wp m s R :=
  fun o ho => hq _ _ (h o ho)

theorem wp_pick {s : St} {Q : Out Bool → St → Prop} (h : ∀ b, Q (.ok b) s) : wp pick s Q := by
  intro o ho
  simp [pick] at ho
  rcases ho with rfl | rfl <;> exact h _

theorem wp_getF {s : St} {Q : Out File → St → Prop} (h : Q (.ok s.file) s) : wp getF s Q := by
  intro o ho
  simp [getF] at ho
  rw [ho]; exact h

theorem wp_setF {g : File → File} {s : St} {Q : Out Unit → St → Prop} (h : Q (.ok ()) { s with file := g s.file }) : wp (setF g) s Q := by
  intro o ho
  simp [setF] at ho
  rw [ho]; exact h

/-! ### Variables -/

theorem find_perm {k : Kind} : ∀ {l : List Tok} {t : Tok}, l.find? (·.kind = k) = some t →
    l.Perm (t :: l.eraseP (·.kind = k)) ∧ t.kind = k
  | [], _, h => by simp at h
  | a :: l, t, h => by
    rw [List.find?_cons] at h
    by_cases ha : a.kind = k
    · simp [ha] at h
      subst h
      simp [ha]
    · simp [ha] at h
      obtain ⟨h1, h2⟩ := find_perm (l := l) (t := t) (k := k) (by simpa using h)
      refine ⟨?_, h2⟩
      rw [List.eraseP_cons_of_neg (by simpa using ha)]
      exact (List.Perm.cons a h1).trans (List.Perm.swap _ _ _)

theorem find_kinds {k : Kind} : ∀ {l : List Tok}, (l.find? (·.kind = k)).isSome = decide (k ∈ l.map (·.kind))
  | [] => by simp
  | a :: l => by
    rw [List.find?_cons]
    by_cases ha : a.kind = k
    · simp [ha]
    · have := find_kinds (k := k) (l := l)
      simp only [ha, decide_false]
      rw [this]
      have hk : ¬ k = a.kind := fun h => ha h.symm
      simp [hk]

theorem erase_kinds {k : Kind} : ∀ {l : List Tok}, (l.eraseP (·.kind = k)).map (·.kind) = (l.map (·.kind)).erase k
  | [] => rfl
  | a :: l => by
    by_cases ha : a.kind = k
    · rw [List.eraseP_cons_of_pos (by simpa using ha)]
      simp [ha]
    · rw [List.eraseP_cons_of_neg (by simpa using ha), List.map_cons, List.map_cons, erase_kinds,
        List.erase_cons_tail (by simpa using ha)]

theorem erase_none {k : Kind} {l : List Tok} (h : k ∉ l.map (·.kind)) : l.eraseP (·.kind = k) = l := by
  apply List.eraseP_of_forall_not
  intro a ha
  simp only [decide_eq_true_eq]
  intro e
  exact h (List.mem_map.mpr ⟨a, ha, e⟩)

theorem At.take {s : St} {X : List Tok} {ks : List Kind} (h : At s X ks) (k : Kind) :
    ∃ Y, Y.map (·.kind) = (if k ∈ ks then [k] else []) ∧ At (s.take k) (Y ++ X) (k :: ks.erase k) := by
  obtain ⟨h1, rfl⟩ := h
  by_cases hk : k ∈ s.loc.map (·.kind)
  · have hs := find_kinds (k := k) (l := s.loc)
    rw [decide_eq_true hk] at hs
    obtain ⟨t, ht⟩ := Option.isSome_iff_exists.mp hs
    obtain ⟨p, pk⟩ := find_perm ht
    refine ⟨[t], by simp [hk, pk], ?_, by simp [St.take, erase_kinds]⟩
    unfold Good St.take
    simp only [List.cons_append, List.nil_append]
    refine List.Perm.cons _ ?_
    refine h1.trans ?_
    refine (List.Perm.append_right _ p).trans ?_
    rw [List.cons_append]
    rw [← List.append_assoc, ← List.append_assoc]
    exact List.perm_middle.symm
  · refine ⟨[], by simp [hk], ?_, by simp [St.take, erase_kinds]⟩
    unfold Good St.take
    rw [erase_none hk]
    simp only [List.cons_append, List.nil_append]
    exact List.Perm.cons _ h1

/-- Release of a token that is not a variable's. -/
theorem wp_put {t : Tok} {s : St} {X : List Tok} {Q : Out Unit → St → Prop} (hm : s.held.Perm (t :: X))
    (h : Q (.ok ()) { s with held := s.held.erase t }) : wp (put t) s Q := by
  have hin : t ∈ s.held := hm.mem_iff.mpr (by simp)
  intro o ho
  unfold put at ho
  rw [if_pos hin] at ho
  simp at ho
  rw [ho]
  exact h

theorem erase_perm {t : Tok} {l X : List Tok} (h : l.Perm (t :: X)) : (l.erase t).Perm X := by
  have := h.erase t
  simpa using this

/-- What simple steps do to the variables: for each outcome whether it is an exception, the kinds of the variables, the kinds of
what is lost. -/
def astep : Step → List Kind → Option (List (Bool × List Kind × List Kind))
  | .acq k, ks => some [(false, k :: ks.erase k, if k ∈ ks then [k] else []), (true, ks, [])]
  | .mal k, ks => some [(false, k :: ks.erase k, if k ∈ ks then [k] else [])]
  | .acqU k, ks => some [(false, k :: ks.erase k, if k ∈ ks then [k] else []), (false, ks, [])]
  | .call, ks => some [(false, ks, []), (true, ks, [])]
  | .rel k, ks => if k ∈ ks then some [(false, ks.erase k, [])] else none
  | .relIf k, ks => some [(false, ks.erase k, [])]

/-- One outcome, and what follows it unless it is an exception. -/
def anext (f : List Kind → Option (List (Bool × List Kind × List Kind))) (o : Bool × List Kind × List Kind) :
    Option (List (Bool × List Kind × List Kind)) :=
  if o.1 then some [o] else (f o.2.1).map (·.map fun e => (e.1, e.2.1, e.2.2 ++ o.2.2))

def abind (f : List Kind → Option (List (Bool × List Kind × List Kind))) : List (Bool × List Kind × List Kind) →
    Option (List (Bool × List Kind × List Kind))
  | [] => some []
  | o :: os => (anext f o).bind fun r => (abind f os).bind fun rs => some (r ++ rs)

def arun : List Step → List Kind → Option (List (Bool × List Kind × List Kind))
  | [], ks => some [(false, ks, [])]
  | c :: cs, ks => (astep c ks).bind (abind (arun cs))

theorem abind_mem {f : List Kind → Option (List (Bool × List Kind × List Kind))} {e : Bool × List Kind × List Kind} :
    ∀ {os rs : List (Bool × List Kind × List Kind)}, abind f os = some rs → e ∈ os → ∃ r, anext f e = some r ∧ ∀ x ∈ r, x ∈ rs
  | [], _, _, he => by cases he
  | o :: os, rs, h, he => by
    simp only [abind, Option.bind_eq_some_iff] at h
    obtain ⟨r, h1, rs', h2, h3⟩ := h
    simp at h3
    subst h3
    rcases List.mem_cons.mp he with rfl | he
    · exact ⟨r, h1, fun x hx => List.mem_append_left _ hx⟩
    · obtain ⟨r', a, b⟩ := abind_mem h2 he
      exact ⟨r', a, fun x hx => List.mem_append_right _ (b x hx)⟩

/-- An outcome as described. -/
def Meets (s : St) (X : List Tok) (e : Bool × List Kind × List Kind) (o : Out Unit) (s' : St) : Prop :=
  o = (if e.1 then .thrown else .ok ()) ∧ s'.file = s.file ∧ ∃ Y, Y.map (·.kind) = e.2.2 ∧ At s' (Y ++ X) e.2.1

theorem wp_move {k : Kind} {s : St} {X : List Tok} {ks : List Kind} {Q : Out Tok → St → Prop} (h : At s X ks) (hk : k ∈ ks)
    (hq : ∀ t s', t.kind = k → s'.file = s.file → At s' (t :: X) (ks.erase k) → Q (.ok t) s') : wp (move k) s Q := by
  obtain ⟨h1, rfl⟩ := h
  have hs := find_kinds (k := k) (l := s.loc)
  rw [decide_eq_true hk] at hs
  obtain ⟨t, ht⟩ := Option.isSome_iff_exists.mp hs
  obtain ⟨p, pk⟩ := find_perm ht
  intro o ho
  unfold move at ho
  rw [ht] at ho
  simp at ho
  rw [ho]
  refine hq t _ pk rfl ⟨?_, by simp [erase_kinds]⟩
  refine h1.trans ?_
  refine (List.Perm.append_right _ p).trans ?_
  simp only [List.cons_append]
  rw [← List.append_assoc, ← List.append_assoc]
  exact List.perm_middle.symm

theorem wp_moveIf {k : Kind} {s : St} {X : List Tok} {ks : List Kind} {Q : Out (Option Tok) → St → Prop} (h : At s X ks)
    (hq : ∀ t s', (∀ x, t = some x → x.kind = k) → (t.isSome = decide (k ∈ ks)) → s'.file = s.file → At s' (t.toList ++ X) (ks.erase k) → Q (.ok t) s') :
    wp (moveIf k) s Q := by
  by_cases hk : k ∈ ks
  · intro o ho
    have := wp_move (Q := fun o s' => ∃ t, o = .ok t ∧ Q (.ok (some t)) s') h hk
      (fun t s' a b c => ⟨t, rfl, hq (some t) s' (by simpa using a) (by simp [hk]) b (by simpa using c)⟩)
    obtain ⟨h1, rfl⟩ := h
    unfold moveIf at ho
    have hs := find_kinds (k := k) (l := s.loc)
    rw [decide_eq_true hk] at hs
    obtain ⟨t, ht⟩ := Option.isSome_iff_exists.mp hs
    rw [ht] at ho
    simp at ho
    have h2 := this (.ok t, { s with loc := s.loc.eraseP (·.kind = k) }) (by unfold move; rw [ht]; simp)
    rw [ho]
    obtain ⟨t', e1, e2⟩ := h2
    cases e1
    exact e2
  · intro o ho
    obtain ⟨h1, rfl⟩ := h
    unfold moveIf at ho
    have hs := find_kinds (k := k) (l := s.loc)
    rw [decide_eq_false hk] at hs
    have hn : s.loc.find? (·.kind = k) = none := by simpa using hs
    rw [hn] at ho
    simp at ho
    rw [ho]
    refine hq none s (by simp) (by simp [hk]) rfl ⟨by simpa using h1, ?_⟩
    rw [List.erase_of_not_mem hk]

theorem wp_step {c : Step} {s : St} {X : List Tok} {ks : List Kind} {os : List (Bool × List Kind × List Kind)} (h : At s X ks)
    (hc : astep c ks = some os) : wp (step c) s fun o s' => ∃ e ∈ os, Meets s X e o s' := by
  have put_var : ∀ {t : Tok} {s' : St} {ks' : List Kind}, s'.file = s.file → At s' (t :: X) ks' →
      wp (put t) s' fun o s'' => Meets s X (false, ks', []) o s'' := by
    intro t s' ks' hf hat
    have hp : s'.held.Perm (t :: (s'.loc ++ (s'.file.toks ++ X))) := by
      refine hat.1.trans ?_
      rw [← List.append_assoc]
      refine List.perm_middle.trans ?_
      rw [List.append_assoc]
    refine wp_put hp ⟨rfl, hf, [], rfl, ?_, hat.2⟩
    exact erase_perm hp
  cases c with
  | acq k =>
    simp only [astep, Option.some.injEq] at hc
    subst hc
    intro o ho
    simp [step] at ho
    rcases ho with rfl | rfl
    · obtain ⟨Y, y1, y2⟩ := h.take k
      exact ⟨(false, k :: ks.erase k, if k ∈ ks then [k] else []), by simp, rfl, rfl, Y, y1, y2⟩
    · exact ⟨(true, ks, []), by simp, rfl, rfl, [], rfl, h⟩
  | mal k =>
    simp only [astep, Option.some.injEq] at hc
    subst hc
    intro o ho
    simp [step] at ho
    subst ho
    obtain ⟨Y, y1, y2⟩ := h.take k
    exact ⟨(false, k :: ks.erase k, if k ∈ ks then [k] else []), by simp, rfl, rfl, Y, y1, y2⟩
  | acqU k =>
    simp only [astep, Option.some.injEq] at hc
    subst hc
    intro o ho
    simp [step] at ho
    rcases ho with rfl | rfl
    · obtain ⟨Y, y1, y2⟩ := h.take k
      exact ⟨(false, k :: ks.erase k, if k ∈ ks then [k] else []), by simp, rfl, rfl, Y, y1, y2⟩
    · exact ⟨(false, ks, []), by simp, rfl, rfl, [], rfl, h⟩
  | call =>
    simp only [astep, Option.some.injEq] at hc
    subst hc
    intro o ho
    simp [step] at ho
    rcases ho with rfl | rfl
    · exact ⟨(false, ks, []), by simp, rfl, rfl, [], rfl, h⟩
    · exact ⟨(true, ks, []), by simp, rfl, rfl, [], rfl, h⟩
  | rel k =>
    simp only [astep] at hc
    split at hc
    · rename_i hk
      simp only [Option.some.injEq] at hc
      subst hc
      refine wp_bind (wp_move h hk ?_)
      intro t s' _ hf hat
      exact wp_mono (put_var hf hat) (fun o s' hm => ⟨_, by simp, hm⟩)
    · cases hc
  | relIf k =>
    simp only [astep, Option.some.injEq] at hc
    subst hc
    refine wp_bind (wp_moveIf h ?_)
    intro t s' _ _ hf hat
    cases t with
    | some t => exact wp_mono (put_var hf hat) (fun o s' hm => ⟨_, by simp, hm⟩)
    | none => exact wp_pure ⟨(false, ks.erase k, []), by simp, rfl, hf, [], rfl, by simpa using hat⟩

theorem wp_run {cs : List Step} : ∀ {s : St} {X : List Tok} {ks : List Kind} {os : List (Bool × List Kind × List Kind)}, At s X ks →
    arun cs ks = some os → wp (run cs) s fun o s' => ∃ e ∈ os, Meets s X e o s' := by
  induction cs with
  | nil =>
    intro s X ks os h hc
    simp only [arun, Option.some.injEq] at hc
    subst hc
    exact wp_pure ⟨(false, ks, []), by simp, rfl, rfl, [], rfl, h⟩
  | cons c cs ih =>
    intro s X ks os h hc
    simp only [arun, Option.bind_eq_some_iff] at hc
    obtain ⟨os1, h1, h2⟩ := hc
    refine wp_bind (wp_mono (wp_step h h1) ?_)
    rintro o s' ⟨e, he, ho, hf, Y, hY, hat⟩
    obtain ⟨r, her, hr⟩ := abind_mem h2 he
    unfold anext at her
    by_cases hb : e.1 = true
    · rw [if_pos hb] at her ho
      subst ho
      simp at her
      subst her
      exact ⟨e, hr _ (by simp), by simp [hb], hf, Y, hY, hat⟩
    · rw [if_neg hb] at her ho
      subst ho
      obtain ⟨os2, g1, g2⟩ := Option.map_eq_some_iff.mp her
      subst g2
      refine wp_mono (ih hat g1) ?_
      rintro o' s'' ⟨e', he', ho', hf', Y', hY', hat'⟩
      refine ⟨(e'.1, e'.2.1, e'.2.2 ++ e.2.2), hr _ (List.mem_map.mpr ⟨e', he', rfl⟩), ho', hf'.trans hf, Y' ++ Y, ?_, ?_⟩
      · simp [hY, hY']
      · simpa using hat'

/-! ### Functions -/

/-- Kinds of which something may be lost when a call fails. -/
def fragile : Kind → Bool
  | .sel | .wreq | .mreq | .xbuf | .fbuf | .rreq | .ptype | .dtype | .mtype | .ldp | .mbuff | .mspace | .mdp | .mdsid | .ent | .secs => true
  | _ => false

def Frag (Y : List Tok) : Prop := ∀ t ∈ Y, fragile t.kind = true

theorem Frag.append {Y Z : List Tok} (h : Frag Y) (h' : Frag Z) : Frag (Y ++ Z) := by
  intro t ht
  rcases List.mem_append.mp ht with h1 | h1
  · exact h t h1
  · exact h' t h1

theorem frag_nil : Frag [] := fun _ h => by cases h

theorem frag_kinds {Y : List Tok} {ks : List Kind} (h : Y.map (·.kind) = ks) (hk : ks.all fragile = true) : Frag Y := by
  intro t ht
  rw [List.all_eq_true] at hk
  exact hk _ (h ▸ List.mem_map.mpr ⟨t, ht, rfl⟩)

def IsReq (t : Tok) : Prop := t.kind = .wreq ∨ t.kind = .mreq

/-- The kinds of what the file object refers to. -/
structure Inv (f : File) : Prop where
  wq : ∀ w ∈ f.wq, ∀ b ∈ w.bufs, b.kind = .xbuf
  mq : ∀ m ∈ f.mq, fragile m.w.req.kind = true ∧ ∀ b ∈ m.w.bufs, b.kind = .xbuf
  idx : ∀ t ∈ f.idx, t.kind = .ent
  dids : (f.mq.map (·.did)).Nodup
  kinds : (∀ w ∈ f.wq, IsReq w.req) ∧ (∀ w ∈ f.done, IsReq w.req) ∧ (∀ m ∈ f.mq, IsReq m.w.req) ∧ ∀ t ∈ f.keys, t.kind = .key

/-- Inside a function: the variables hold `ks`, `Y` has been lost, the queue of reads is `q`. -/
structure In (q : List RQ) (X : List Tok) (ks : List Kind) (Y : List Tok) (s : St) : Prop where
  at_ : At s (Y ++ X) ks
  frag : Frag Y
  inv : Inv s.file
  rq : s.file.rq = q

/-- What is left in variables when a function ends whose `finally` releases `fin`. -/
def left (fin ks : List Kind) : List Kind := fin.foldl List.erase ks

/-- An exception inside a function whose `finally` releases `fin`. -/
def Bad (fin : List Kind) (q : List RQ) (X : List Tok) (s : St) : Prop :=
  ∃ Y ks, In q X ks Y s ∧ (left fin ks).all fragile = true

/-- A function: what it loses is fragile; if it succeeds, `R` relates the file before, the result, the file after and the kinds of what is
lost. -/
def Fn {α : Type} (m : M α) (R : File → α → File → List Kind → Prop) : Prop :=
  ∀ s X, Good s X → Inv s.file → wp m s fun o s' => match o with
    | .ub => False
    | .thrown => s'.loc = s.loc ∧ s'.file.rq = s.file.rq ∧ Inv s'.file ∧ ∃ Y, Good s' (Y ++ X) ∧ Frag Y
    | .ok a => s'.loc = s.loc ∧ s'.file.rq = s.file.rq ∧ Inv s'.file ∧
        ∃ Y, Good s' (Y ++ X) ∧ Frag Y ∧ R s.file a s'.file (Y.map (·.kind))

theorem fin_arun : ∀ (fin ks : List Kind), arun (fin.map .relIf) ks = some [(false, left fin ks, [])]
  | [], ks => rfl
  | k :: fin, ks => by
    simp only [List.map_cons, arun, astep, Option.bind_some, abind, anext, fin_arun fin]
    simp [left]

theorem wp_frame {α : Type} {fin : List Kind} {m : M α} {s : St} {Q : Out α → St → Prop}
    (h : wp m { s with loc := [] } fun o s' => ∃ Z ks, At s' Z ks ∧ ∀ s'' W, W.map (·.kind) = left fin ks → s''.loc = s.loc →
      s''.file = s'.file → s''.held.Perm (W ++ (s''.file.toks ++ Z)) → Q o s'') : wp (frame fin m) s Q := by
  intro o ho
  obtain ⟨o1, h1, h2⟩ := List.mem_flatMap.mp (show o ∈ (m { s with loc := [] }).flatMap _ from ho)
  obtain ⟨e, h3, h4⟩ := List.mem_map.mp h2
  obtain ⟨Z, ks, hat, hq⟩ := h o1 h1
  obtain ⟨e', he', ho', hf, Y, hY, hat'⟩ := wp_run hat (fin_arun fin ks) e h3
  simp at he'
  subst he'
  simp at ho' hY
  subst hY
  rw [ho'] at h4
  subst h4
  exact hq _ e.2.loc hat'.2 rfl hf (by have := hat'.1; simpa [Good] using this)

theorem Fn.frame {α : Type} {fin : List Kind} {m : M α} {R : File → α → File → List Kind → Prop}
    (h : ∀ s X, In s.file.rq X [] [] s → wp m s fun o s' => match o with
      | .ub => False
      | .thrown => Bad fin s.file.rq X s'
      | .ok a => ∃ Y ks, In s.file.rq X ks Y s' ∧ (left fin ks).all fragile = true ∧ R s.file a s'.file (left fin ks ++ Y.map (·.kind))) :
    Fn (frame fin m) R := by
  intro s X hg hi
  have hin : In s.file.rq (s.loc ++ X) [] [] { s with loc := [] } := by
    refine ⟨⟨?_, rfl⟩, frag_nil, hi, rfl⟩
    unfold Good at hg ⊢
    rw [List.perm_iff_count] at hg ⊢
    intro a
    have := hg a
    simp only [List.count_append, List.nil_append] at this ⊢
    omega
  have key : ∀ (W Y : List Tok) (s'' : St), s''.loc = s.loc → s''.held.Perm (W ++ (s''.file.toks ++ (Y ++ (s.loc ++ X)))) →
      Good s'' ((W ++ Y) ++ X) := by
    intro W Y s'' hl hp
    unfold Good
    rw [List.perm_iff_count] at hp ⊢
    intro a
    have := hp a
    simp only [List.count_append, hl] at this ⊢
    omega
  refine wp_frame (wp_mono (h _ _ hin) ?_)
  intro o s' ho
  cases o with
  | ub => exact ho.elim
  | thrown =>
    obtain ⟨Y, ks, a, b⟩ := ho
    refine ⟨_, ks, a.at_, ?_⟩
    intro s'' W hW hl hf hp
    exact ⟨hl, by rw [hf, a.rq], hf ▸ a.inv, W ++ Y, key W Y s'' hl hp, (frag_kinds hW b).append a.frag⟩
  | ok r =>
    obtain ⟨Y, ks, a, b, c⟩ := ho
    refine ⟨_, ks, a.at_, ?_⟩
    intro s'' W hW hl hf hp
    refine ⟨hl, by rw [hf, a.rq], hf ▸ a.inv, W ++ Y, key W Y s'' hl hp, (frag_kinds hW b).append a.frag, ?_⟩
    rw [hf, List.map_append, hW]
    exact c

/-- Check of simple steps: nothing is released that is not held; what is lost is fragile; the variables and what is lost at the end are
among `oks`. -/
def chk (fin : List Kind) (cs : List Step) (ks : List Kind) (oks : List (List Kind × List Kind)) : Bool :=
  match arun cs ks with
  | none => false
  | some os => os.all fun e => e.2.2.all fragile && if e.1 then (left fin e.2.1).all fragile else decide (e.2 ∈ oks)

theorem In.run {fin : List Kind} {cs : List Step} {ks : List Kind} {oks : List (List Kind × List Kind)} {q : List RQ} {X Y : List Tok}
    {s : St} {Q : Out Unit → St → Prop} (h : In q X ks Y s) (hc : chk fin cs ks oks = true) (ht : ∀ s', Bad fin q X s' → Q .thrown s')
    (hk : ∀ e ∈ oks, ∀ s' Z, s'.file = s.file → Z.map (·.kind) = e.2 → In q X e.1 (Z ++ Y) s' → Q (.ok ()) s') :
    wp (run cs) s Q := by
  unfold chk at hc
  cases hr : arun cs ks with
  | none => rw [hr] at hc; cases hc
  | some os =>
    rw [hr] at hc
    refine wp_mono (wp_run h.at_ hr) ?_
    rintro o s' ⟨e, he, rfl, hf, Z, hZ, hat⟩
    have := List.all_eq_true.mp hc e he
    rw [Bool.and_eq_true] at this
    obtain ⟨h1, h2⟩ := this
    have hin : In q X e.2.1 (Z ++ Y) s' :=
      ⟨by rw [List.append_assoc]; exact hat, (frag_kinds hZ h1).append h.frag, hf ▸ h.inv, by rw [hf]; exact h.rq⟩
    by_cases hb : e.1 = true
    · rw [if_pos hb] at h2 ⊢
      exact ht _ ⟨_, _, hin, h2⟩
    · rw [if_neg hb] at h2 ⊢
      exact hk e.2 (of_decide_eq_true h2) s' Z hf hZ hin

theorem In.fn {α : Type} {fin : List Kind} {m : M α} {R : File → α → File → List Kind → Prop} {ks : List Kind} {q : List RQ}
    {X Y : List Tok} {s : St} {Q : Out α → St → Prop} (h : In q X ks Y s) (hm : Fn m R) (hb : (left fin ks).all fragile = true)
    (ht : ∀ s', Bad fin q X s' → Q .thrown s')
    (hk : ∀ a s' Z, R s.file a s'.file (Z.map (·.kind)) → In q X ks (Z ++ Y) s' → Q (.ok a) s') : wp m s Q := by
  refine wp_mono (hm s _ h.at_.1 h.inv) ?_
  intro o s' ho
  cases o with
  | ub => exact ho.elim
  | thrown =>
    obtain ⟨a, b, c, Z, d, e⟩ := ho
    exact ht _ ⟨Z ++ Y, ks, ⟨⟨by rw [List.append_assoc]; exact d, by rw [a]; exact h.at_.2⟩, e.append h.frag, c, by rw [b]; exact h.rq⟩, hb⟩
  | ok r =>
    obtain ⟨a, b, c, Z, d, e, f⟩ := ho
    exact hk r s' Z f ⟨⟨by rw [List.append_assoc]; exact d, by rw [a]; exact h.at_.2⟩, e.append h.frag, c, by rw [b]; exact h.rq⟩

theorem wp_putAll : ∀ {ts : List Tok} {s : St} {Z : List Tok} {Q : Out Unit → St → Prop}, s.held.Perm (ts ++ Z) →
    (∀ hd, List.Perm hd Z → Q (.ok ()) { s with held := hd }) → wp (putAll ts) s Q
  | [], s, Z, Q, hp, h => wp_pure (h s.held hp)
  | t :: ts, s, Z, Q, hp, h => by
    refine wp_bind (wp_put (X := ts ++ Z) hp ?_)
    exact wp_putAll (s := { s with held := s.held.erase t }) (erase_perm hp) h

theorem wp_use {t : Tok} {s : St} {Q : Out Unit → St → Prop} (hm : t ∈ s.held) (h : Q (.ok ()) s) : wp (use t) s Q := by
  intro o ho
  unfold use at ho
  rw [if_pos hm] at ho
  simp at ho
  rw [ho]
  exact h

theorem wp_useAll : ∀ {ts : List Tok} {s : St} {Q : Out Unit → St → Prop}, (∀ t ∈ ts, t ∈ s.held) → Q (.ok ()) s → wp (useAll ts) s Q
  | [], _, _, _, h => wp_pure h
  | t :: ts, s, Q, hm, h => wp_bind (wp_use (hm t (by simp)) (wp_useAll (fun x hx => hm x (by simp [hx])) h))

theorem In.held {q : List RQ} {X Y : List Tok} {ks : List Kind} {s : St} (h : In q X ks Y s) :
    s.held.Perm (s.loc ++ (s.file.toks ++ (Y ++ X))) := h.at_.1

/-- Something in the file object has changed, and something has been released. -/
theorem In.mk' {q q' : List RQ} {X Y Y' : List Tok} {ks : List Kind} {s s' : St} (h : In q X ks Y s) (hl : s'.loc = s.loc)
    (hp : s'.held.Perm (s.loc ++ (s'.file.toks ++ (Y' ++ X)))) (hf : Frag Y') (hi : Inv s'.file) (hr : s'.file.rq = q') :
    In q' X ks Y' s' :=
  ⟨⟨by unfold Good; rw [hl]; exact hp, by rw [hl]; exact h.at_.2⟩, hf, hi, hr⟩

theorem In.setF {q q' : List RQ} {X Y Y' : List Tok} {ks : List Kind} {s : St} {g : File → File} {Q : Out Unit → St → Prop}
    (h : In q X ks Y s) (hp : (s.file.toks ++ Y).Perm ((g s.file).toks ++ Y')) (hf : Frag Y') (hi : Inv (g s.file))
    (hr : (g s.file).rq = q') (hk : ∀ s', s'.file = g s.file → In q' X ks Y' s' → Q (.ok ()) s') : wp (Held.setF g) s Q := by
  refine wp_setF (hk _ rfl (h.mk' rfl ?_ hf hi hr))
  refine h.held.trans (List.Perm.append_left _ ?_)
  rw [← List.append_assoc, ← List.append_assoc]
  exact hp.append_right _

theorem In.putSet {q q' : List RQ} {X Y Y' : List Tok} {ks : List Kind} {s : St} {ts : List Tok} {g : File → File} {Q : Out Unit → St → Prop}
    (h : In q X ks Y s) (hp : (s.file.toks ++ Y).Perm (ts ++ ((g s.file).toks ++ Y'))) (hf : Frag Y') (hi : Inv (g s.file))
    (hr : (g s.file).rq = q') (hk : ∀ s', s'.file = g s.file → In q' X ks Y' s' → Q (.ok ()) s') :
    wp (do putAll ts; Held.setF g : M Unit) s Q := by
  have hh := h.held
  refine wp_bind (wp_putAll (Z := s.loc ++ ((g s.file).toks ++ (Y' ++ X))) ?_ ?_)
  · rw [List.perm_iff_count] at hh hp ⊢
    intro a
    have h1 := hh a
    have h2 := hp a
    simp only [List.count_append] at h1 h2 ⊢
    omega
  · intro hd hp'
    exact wp_setF (hk _ rfl (h.mk' rfl hp' hf hi hr))

theorem queue_perm (l : List WQ) : (l.flatMap (fun w => w.req :: w.bufs)).Perm (l.map (·.req) ++ l.flatMap (·.bufs)) := by
  induction l with
  | nil => simp
  | cons w l ih =>
    rw [List.perm_iff_count] at ih ⊢
    intro a
    have := ih a
    simp only [List.flatMap_cons, List.map_cons, List.cons_append, List.count_append, List.count_cons] at this ⊢
    omega

theorem merged_perm (p : MQ → Bool) (l : List MQ) :
    ((l.filter p).flatMap (fun m => m.w.req :: m.w.bufs) ++ (l.filter (fun m => !p m)).flatMap (fun m => m.w.req :: m.w.bufs)).Perm
      (l.flatMap (fun m => m.w.req :: m.w.bufs)) := by
  rw [← List.flatMap_append]
  exact (List.filter_append_perm p l).flatMap_right _

end Verif.Held
