import Verif.Spec.Lookup
import Verif.Props.Tree

/-
C97: objects addressed by index and by token, and names of open objects.
-/

namespace Verif.Props
open _root_.Verif.Spec (early hiddenAt namesIn LeadsTo told InnerUnderscore)

/-! ### Lists -/

theorem insert_get {α : Type} {x : α} {l : List α} {k : Nat} (hk : k ≤ l.length) (n : Nat) :
    (l.take k ++ x :: l.drop k)[n]? = if n < k then l[n]? else if n = k then some x else l[n - 1]? := by
  have hl : (l.take k).length = k := by rw [List.length_take]; omega
  by_cases h1 : n < k
  · rw [if_pos h1, List.getElem?_append_left (by omega), List.getElem?_take_of_lt h1]
  · rw [if_neg h1, List.getElem?_append_right (by omega), hl]
    by_cases h2 : n = k
    · rw [if_pos h2, h2, Nat.sub_self, List.getElem?_cons_zero]
    · rw [if_neg h2]
      obtain ⟨m, rfl⟩ : ∃ m, n = k + (m + 1) := ⟨n - k - 1, by omega⟩
      rw [Nat.add_sub_cancel_left, List.getElem?_cons_succ, List.getElem?_drop]
      rfl

theorem insert_reverse {α : Type} {x : α} {l : List α} {k : Nat} (hk : k ≤ l.length) :
    (l.take k ++ x :: l.drop k).reverse = l.reverse.take (l.length - k) ++ x :: l.reverse.drop (l.length - k) := by
  rw [List.reverse_append, List.reverse_cons, List.append_assoc, List.singleton_append, List.take_reverse, List.drop_reverse]
  rw [show l.length - (l.length - k) = k by omega]

/-- Where a name is inserted. -/
theorem insertName_takeWhile (x : Name) : ∀ l : List Name, insertName x l =
    l.take (l.takeWhile (fun m => !nameLe x m)).length ++ x :: l.drop (l.takeWhile (fun m => !nameLe x m)).length
  | [] => rfl
  | m :: ms => by
    rw [insertName]
    cases h : nameLe x m
    · have e : (m :: ms).takeWhile (fun m => !nameLe x m) = m :: ms.takeWhile (fun m => !nameLe x m) := by
        rw [List.takeWhile_cons_of_pos]; simp [h]
      rw [e, List.length_cons, List.take_succ_cons, List.drop_succ_cons, List.cons_append, ← insertName_takeWhile x ms]
      simp
    · have e : (m :: ms).takeWhile (fun m => !nameLe x m) = [] := by
        rw [List.takeWhile_cons_of_neg]; simp [h]
      rw [e]
      simp

theorem takeWhile_filter {α : Type} {p : α → Bool} {R : α → α → Prop} (hp : ∀ a b, R a b → p b = true → p a = true) :
    ∀ l : List α, l.Pairwise R → l.takeWhile p = l.filter p
  | [], _ => rfl
  | a :: l, h => by
    obtain ⟨h1, h2⟩ := List.pairwise_cons.mp h
    cases ha : p a
    · rw [List.takeWhile_cons_of_neg (by simp [ha]), List.filter_cons_of_neg (by simp [ha])]
      symm
      rw [List.filter_eq_nil_iff]
      intro b hb hpb
      have := hp a b (h1 b hb) hpb
      rw [ha] at this
      cases this
    · rw [List.takeWhile_cons_of_pos ha, List.filter_cons_of_pos ha, takeWhile_filter hp l h2]

theorem insertName_perm (x : Name) : ∀ l : List Name, (insertName x l).Perm (x :: l)
  | [] => .refl _
  | m :: ms => by
    rw [insertName]
    split
    · exact .refl _
    · exact ((insertName_perm x ms).cons m).trans (.swap x m ms)

theorem sortNames_perm : ∀ l : List Name, (sortNames l).Perm l
  | [] => .refl _
  | n :: ns => (insertName_perm n _).trans ((sortNames_perm ns).cons n)

/-! ### The place of the log -/

theorem early_iff (c : Name) : (!nameLe "_LOG".toList (escName c)) = early c := by
  cases c with
  | nil => rfl
  | cons a r =>
    unfold escName early
    by_cases ha : a = '_'
    · subst ha
      rfl
    · have e : ¬ (a :: r).head? = some '_' := by simpa using ha
      rw [if_neg e]
      show (!nameLe ('_' :: "LOG".toList) (a :: r)) = _
      have hn : a.toNat ≠ 95 := by
        intro h
        apply ha
        have : a = Char.ofNat a.toNat := (Char.ofNat_toNat a).symm
        rw [this, h]
      have h95 : ('_' : Char).toNat = 95 := rfl
      rw [nameLe, h95]
      by_cases h1 : 95 < a.toNat
      · rw [if_pos h1]
        have : ¬ a.toNat < 95 := by omega
        simp [this]
      · rw [if_neg h1, if_pos (show a.toNat < 95 by omega)]
        have : a.toNat < 95 := by omega
        simp [this]

theorem early_mono {a b : Name} (h : nameLe a b = true) (hb : early b = true) : early a = true := by
  cases a with
  | nil => rfl
  | cons x r =>
    cases b with
    | nil => simp [nameLe] at h
    | cons y s =>
      simp only [early, decide_eq_true_eq] at hb ⊢
      rw [nameLe] at h
      split at h
      · omega
      · split at h
        · cases h
        · omega

theorem hidden_le (ns : List Name) : (ns.filter early).length ≤ ns.length := List.length_filter_le ..

/-- The listing of the root group of a log-based file. -/
theorem listing_root {s p : Tree} (r : TreeRel s p) (o : TOrder) (dec : Bool) (n : Nat) :
    (if dec then (s.listing 0 o).reverse else s.listing 0 o)[n]? =
      if n < hiddenAt (namesIn p 0) o dec then ((if dec then (p.listing 0 o).reverse else p.listing 0 o)[n]?).map escName
      else if n = hiddenAt (namesIn p 0) o dec then some "_LOG".toList
      else ((if dec then (p.listing 0 o).reverse else p.listing 0 o)[n - 1]?).map escName := by
  obtain ⟨k, hk, hl, h1, h2⟩ : ∃ k, k ≤ (p.listing 0 o).length ∧
      s.listing 0 o = ((p.listing 0 o).map escName).take k ++ "_LOG".toList :: ((p.listing 0 o).map escName).drop k ∧
      hiddenAt (namesIn p 0) o false = k ∧ hiddenAt (namesIn p 0) o true = (p.listing 0 o).length - k := by
    cases o with
    | created =>
      refine ⟨0, Nat.zero_le _, ?_, rfl, ?_⟩
      · simp only [Tree.listing, links_in r, if_true, List.take_zero, List.drop_zero, List.nil_append, List.singleton_append]
      · simp [hiddenAt, namesIn, Tree.listing]
    | name =>
      have hlen : ((sortNames (namesIn p 0)).filter early).length = ((namesIn p 0).filter early).length :=
        ((sortNames_perm _).filter _).length_eq
      have hlen2 : (sortNames (namesIn p 0)).length = (namesIn p 0).length := (sortNames_perm _).length_eq
      refine ⟨((namesIn p 0).filter early).length, ?_, ?_, rfl, ?_⟩
      · show _ ≤ (sortNames (namesIn p 0)).length
        rw [hlen2]
        exact hidden_le _
      · simp only [Tree.listing, links_in r, if_true, List.singleton_append]
        change sortNames ("_LOG".toList :: (namesIn p 0).map escName) = List.take _ ((sortNames (namesIn p 0)).map escName) ++ _
        rw [sortNames, sortNames_esc, insertName_takeWhile]
        have : ((sortNames (namesIn p 0)).map escName).takeWhile (fun m => !nameLe "_LOG".toList m) =
            ((sortNames (namesIn p 0)).filter early).map escName := by
          rw [List.takeWhile_map, ← takeWhile_filter (fun a b h hb => early_mono h hb) _ (sortNames_sorted _)]
          congr 2
          funext c
          exact early_iff c
        rw [this, List.length_map, hlen]
        rfl
      · show (namesIn p 0).length - _ = (sortNames (namesIn p 0)).length - _
        rw [hlen2]
  have hk' : k ≤ ((p.listing 0 o).map escName).length := by rw [List.length_map]; exact hk
  cases dec
  · simp only [Bool.false_eq_true, if_false]
    rw [hl, insert_get hk', h1, List.getElem?_map, List.getElem?_map]
  · simp only [if_true]
    rw [hl, insert_reverse hk', insert_get (by simp), h2, List.length_map, ← List.map_reverse, List.getElem?_map,
      List.getElem?_map]

/-- The listing of any other group. -/
theorem listing_other {s p : Tree} (r : TreeRel s p) {g : Nat} (hg : g ≠ 0) (o : TOrder) :
    s.listing g o = (p.listing g o).map escName := by
  cases o with
  | created => simp only [Tree.listing, links_in r, if_neg hg, List.nil_append]
  | name => simp only [Tree.listing, links_in r, if_neg hg, List.nil_append, sortNames_esc]

/-- Operations by name as in C59, asking for tokens, and opening by any token but that of the log. -/
def Spec.FineX : XOp → Prop
  | .name op => Spec.FineOp op
  | .other (.token _) => True
  | .other (.openToken _ o) => o ≠ 1
  | .other _ => False

theorem TRel.live {s p : TState} (r : TRel s p) {o : Nat} (ho : o ≠ 1) : s.live o = p.live o := by
  unfold TState.live
  rw [r.handles, r.tree.links, List.any_cons, List.any_map]
  have : ((1 : Nat) == o) = false := by simpa using fun e : 1 = o => ho e.symm
  rw [this, Bool.false_or]
  rfl

theorem tree_stepX {s p : TState} (r : TRel s p) {op : XOp} (h : Spec.FineX op) :
    ResRel (fun x y => TRel x.1 y.1 ∧ x.2 = y.2) (s.stepX .log true op) (p.stepX .plain false op) := by
  cases op with
  | name op => exact tree_step r h
  | other op =>
    cases op with
    | token l =>
      refine (r.at l).bind ?_
      rintro o _ ⟨rfl, _⟩
      exact ⟨r, rfl⟩
    | openToken l o =>
      refine (r.at l).bind ?_
      rintro _ _ ⟨rfl, _⟩
      simp only [r.live h]
      split
      · refine ⟨⟨r.tree, by simp only [r.handles], ?_⟩, rfl⟩
        intro x hx
        rcases List.mem_append.1 hx with hx | hx
        · exact r.user x hx
        · rw [List.mem_singleton.1 hx]; exact h
      · trivial
    | _ => exact h.elim

theorem tree_runX {s p : TState} (r : TRel s p) (ops : List XOp) (h : ∀ op ∈ ops, Spec.FineX op) :
    TRel (s.runX .log true ops).1 (p.runX .plain false ops).1 ∧ (s.runX .log true ops).2 = (p.runX .plain false ops).2 := by
  induction ops generalizing s p with
  | nil => exact ⟨r, rfl⟩
  | cons op ops ih =>
    have hs := tree_stepX r (h op List.mem_cons_self)
    have ho := fun o ho => h o (List.mem_cons_of_mem _ ho)
    simp only [TState.runX]
    cases e1 : s.stepX .log true op <;> cases e2 : p.stepX .plain false op <;> rw [e1, e2] at hs <;> simp only [ResRel] at hs
    · obtain ⟨r', e⟩ := hs
      obtain ⟨a, b⟩ := ih r' ho
      exact ⟨a, by simp only [b, e]⟩
    · obtain ⟨a, b⟩ := ih r ho
      exact ⟨a, by simp only [b]⟩

theorem nth_log {s p : TState} (r : TRel s p) {h g : Nat} {q : Name} (hq : Spec.PlainPath q) (hl : LeadsTo p h q g) :
    g ≠ 1 ∧ LeadsTo s h q g := by
  obtain ⟨loc, h1, h2, h3⟩ := hl
  have hu : loc ≠ 1 := by
    have := r.at h
    rw [h1] at this
    cases e : s.at h <;> rw [e] at this <;> simp only [ResRel] at this
    exact this.2
  have hne : q ≠ [] := by
    rintro rfl
    simp [Tree.find] at h2
  have hn : nameRemap q = .ok q := by
    unfold nameRemap
    rw [if_neg hne, if_neg hq.2]
  have hg := r.tree.find_user hu h2
  refine ⟨hg, loc, ?_, by rw [r.tree.find hq.1 hn, h2], by rw [r.tree.kinds g hg, h3]⟩
  unfold TState.at at h1 ⊢
  rw [r.handles]
  exact h1

/-- What opening by index tells, in terms of the listing. -/
theorem openIdx_told {s : TState} {h g : Nat} {q : Name} (hl : LeadsTo s h q g) (log : Bool) (o : TOrder) (dec : Bool) (n : Nat) :
    told (s.stepI log (.openIdx h q o dec n)) =
      match ((if dec then (s.tree.listing g o).reverse else s.tree.listing g o)[n]?).bind (s.tree.look g) with
      | none => .err
      | some x => .ok (.obj x) := by
  obtain ⟨loc, h1, h2, h3⟩ := hl
  simp only [TState.stepI, h1, Res.ok_bind, Tree.nthObj, Tree.nth, h2, if_pos h3]
  cases (if dec then (s.tree.listing g o).reverse else s.tree.listing g o)[n]? with
  | none => rfl
  | some c =>
    simp only [Res.ok_bind, Option.bind_some]
    cases s.tree.look g c <;> rfl

/-! ### C97 -/

/-- **C97, partial: tokens.** In every sequence of operations by name as in C59, with tokens told and objects opened by them,
the log-based file tells what an ordinary file tells; in particular a token leads to the object it was told for. -/
theorem C97_token_partial (ops : List XOp) (h : ∀ op ∈ ops, Spec.FineX op) :
    (TState.log.runX .log true ops).2 = (TState.plain.runX .plain false ops).2 := (tree_runX tree_start ops h).2

theorem live_walk {s : TState} : ∀ (cs : List Name) {o x : Nat}, s.live o = true → s.tree.walk o cs = some x → s.live x = true
  | [], o, x, h, e => by
    rw [Tree.walk, Option.some.injEq] at e
    rw [← e]; exact h
  | c :: cs, o, x, _, e => by
    rw [Tree.walk] at e
    cases hk : s.tree.look o c with
    | none => rw [hk] at e; exact absurd e (by simp)
    | some y =>
      rw [hk] at e
      refine live_walk cs ?_ e
      unfold Tree.look at hk
      obtain ⟨l, h1, h2⟩ := Option.map_eq_some_iff.1 hk
      have : s.tree.links.any (fun l => l.target == y) = true :=
        List.any_eq_true.2 ⟨l, List.mem_of_find?_eq_some h1, by simp [h2]⟩
      unfold TState.live
      rw [this]
      simp

/-- **C97.** What a name opens, the token of it opens as well: in every file and after everything. -/
theorem C97_reached (w : TNames) (log : Bool) (s : TState) {h x : Nat} {q : Name} {k : Option TKind}
    (e : told (s.step w (.open h q k)) = .ok (.obj x)) : told (s.stepI log (.openToken h x)) = .ok (.obj x) := by
  cases h1 : s.at h with
  | err => simp [TState.step, h1, told] at e
  | ub => simp [TState.step, h1, told] at e
  | ok loc =>
  cases h2 : w.given q with
  | err => simp [TState.step, h1, h2, told] at e
  | ub => simp [TState.step, h1, h2, told] at e
  | ok n =>
  cases h3 : s.tree.open loc n k with
  | err => simp [TState.step, h1, h2, h3, told] at e
  | ub => simp [TState.step, h1, h2, h3, told] at e
  | ok o =>
  have ho : o = x := by simpa [TState.step, h1, h2, h3, told] using e
  rw [ho] at h3
  have hf : s.tree.find loc n = some x := by
    unfold Tree.open at h3
    cases hf : s.tree.find loc n with
    | none => rw [hf] at h3; simp at h3
    | some y =>
      rw [hf] at h3
      cases k with
      | none => simp only [Res.ok.injEq] at h3; rw [h3]
      | some k =>
        by_cases hk : s.tree.kind y = some k
        · simp only [hk, if_true, Res.ok.injEq] at h3; rw [h3]
        · simp only [hk, if_false] at h3; simp at h3
  have hlive : s.live x = true := by
    unfold Tree.find at hf
    by_cases hn : n = []
    · rw [if_pos hn] at hf; exact absurd hf (by simp)
    rw [if_neg hn] at hf
    refine live_walk _ ?_ hf
    unfold pathStart
    split
    · simp [TState.live]
    · have : loc ∈ s.handles := by
        unfold TState.at at h1
        cases g : s.handles[h]? with
        | none => rw [g] at h1; simp at h1
        | some y =>
          rw [g] at h1
          simp only [Res.ok.injEq] at h1
          rw [← h1]; exact List.mem_of_getElem? g
      simp [TState.live, this]
  simp only [TState.stepI, h1, Res.ok_bind, hlive, if_true]
  rfl

/-- **C97, violated.** The token of the log opens the log. -/
theorem C97_hidden_violated (ops : List XOp) (h : ∀ op ∈ ops, Spec.FineX op) {l o : Nat}
    (hl : (TState.plain.runX .plain false ops).1.at l = .ok o) :
    told ((TState.log.runX .log true ops).1.stepI true (.openToken l 1)) = .ok (.obj 1) := by
  obtain ⟨r, _⟩ := tree_runX tree_start ops h
  generalize (TState.plain.runX .plain false ops).1 = p at r hl
  generalize (TState.log.runX .log true ops).1 = s at r
  have e : s.at l = .ok o := by
    unfold TState.at at hl ⊢
    rw [r.handles]
    exact hl
  have : s.live 1 = true := by
    unfold TState.live
    rw [r.tree.links]
    simp
  simp only [TState.stepI, e, Res.ok_bind, this, if_true]
  rfl

/-- **C97, partial: groups other than the root group.** H5Oopen_by_idx opens what it opens in an ordinary file. -/
theorem C97_index_partial (ops : List XOp) (h : ∀ op ∈ ops, Spec.FineX op) {l g : Nat} {q : Name} (hq : Spec.PlainPath q)
    (hl : LeadsTo (TState.plain.runX .plain false ops).1 l q g) (hg : g ≠ 0) (o : TOrder) (dec : Bool) (n : Nat) :
    told ((TState.log.runX .log true ops).1.stepI true (.openIdx l q o dec n)) =
      told ((TState.plain.runX .plain false ops).1.stepI false (.openIdx l q o dec n)) := by
  obtain ⟨r, _⟩ := tree_runX tree_start ops h
  generalize (TState.plain.runX .plain false ops).1 = p at r hl
  generalize (TState.log.runX .log true ops).1 = s at r
  rw [openIdx_told (nth_log r hq hl).2, openIdx_told hl, listing_other r.tree hg, ← List.map_reverse]
  have : (if dec = true then (p.tree.listing g o).reverse.map escName else (p.tree.listing g o).map escName)[n]? =
      ((if dec then (p.tree.listing g o).reverse else p.tree.listing g o)[n]?).map escName := by
    cases dec
    · exact List.getElem?_map
    · exact List.getElem?_map
  rw [this]
  cases (if dec then (p.tree.listing g o).reverse else p.tree.listing g o)[n]? with
  | none => rfl
  | some c => simp only [Option.map_some, Option.bind_some, r.tree.look]

/-- **C97, violated.** In the root group H5Oopen_by_idx counts the log: it opens the log at one index, and behind it the
object before the one asked for. -/
theorem C97_index_violated (ops : List XOp) (h : ∀ op ∈ ops, Spec.FineX op) {l : Nat} {q : Name} (hq : Spec.PlainPath q)
    (hl : LeadsTo (TState.plain.runX .plain false ops).1 l q 0) (o : TOrder) (dec : Bool) (n : Nat) :
    told ((TState.log.runX .log true ops).1.stepI true (.openIdx l q o dec n)) =
      if n < hiddenAt (namesIn (TState.plain.runX .plain false ops).1.tree 0) o dec then
        told ((TState.plain.runX .plain false ops).1.stepI false (.openIdx l q o dec n))
      else if n = hiddenAt (namesIn (TState.plain.runX .plain false ops).1.tree 0) o dec then .ok (.obj 1)
      else told ((TState.plain.runX .plain false ops).1.stepI false (.openIdx l q o dec (n - 1))) := by
  obtain ⟨r, _⟩ := tree_runX tree_start ops h
  generalize (TState.plain.runX .plain false ops).1 = p at r hl
  generalize (TState.log.runX .log true ops).1 = s at r
  rw [openIdx_told (nth_log r hq hl).2, openIdx_told hl, openIdx_told hl, listing_root r.tree]
  have hlog : s.tree.look 0 "_LOG".toList = some 1 := by
    unfold Tree.look
    rw [r.tree.links, List.find?_cons_of_pos (by simp)]
    rfl
  have hm : ∀ x : Option Name, (x.map escName).bind (s.tree.look 0) = x.bind (p.tree.look 0) := by
    intro x
    cases x with
    | none => rfl
    | some c => simp only [Option.map_some, Option.bind_some, r.tree.look]
  by_cases h1 : n < hiddenAt (namesIn p.tree 0) o dec
  · rw [if_pos h1, if_pos h1, hm]
  · rw [if_neg h1, if_neg h1]
    by_cases h2 : n = hiddenAt (namesIn p.tree 0) o dec
    · rw [if_pos h2, if_pos h2, Option.bind_some, hlog]
    · rw [if_neg h2, if_neg h2, hm]

/-- **C97, violated.** What an ordinary file tells about every link that is there, or removes, is refused by index. -/
theorem C97_refused_violated (ops : List XOp) (h : ∀ op ∈ ops, Spec.FineX op) {l g : Nat} {q : Name} (hq : Spec.PlainPath q)
    (hl : LeadsTo (TState.plain.runX .plain false ops).1 l q g) (o : TOrder) (dec : Bool) {n : Nat}
    (hn : n < (namesIn (TState.plain.runX .plain false ops).1.tree g).length) :
    LeadsTo (TState.log.runX .log true ops).1 l q g ∧
    (∃ c ∈ namesIn (TState.plain.runX .plain false ops).1.tree g,
      told ((TState.plain.runX .plain false ops).1.stepI false (.nameIdx l q o dec n)) = .ok (.names [c]) ∧
      told ((TState.plain.runX .plain false ops).1.stepI false (.deleteIdx l q o dec n)) = .ok .done) ∧
    told ((TState.log.runX .log true ops).1.stepI true (.nameIdx l q o dec n)) = .err ∧
    told ((TState.log.runX .log true ops).1.stepI true (.infoIdx l q o dec n)) = .err ∧
    told ((TState.log.runX .log true ops).1.stepI true (.deleteIdx l q o dec n)) = .err := by
  obtain ⟨r, _⟩ := tree_runX tree_start ops h
  generalize (TState.plain.runX .plain false ops).1 = p at r hl hn
  generalize (TState.log.runX .log true ops).1 = s at r
  refine ⟨(nth_log r hq hl).2, ?_, rfl, rfl, rfl⟩
  obtain ⟨loc, h1, h2, h3⟩ := hl
  have hp : (if dec then (p.tree.listing g o).reverse else p.tree.listing g o).Perm (namesIn p.tree g) := by
    have : (p.tree.listing g o).Perm (namesIn p.tree g) := by
      cases o
      · exact List.Perm.refl _
      · exact sortNames_perm _
    cases dec
    · exact this
    · exact (List.reverse_perm _).trans this
  have hlt := hp.length_eq ▸ hn
  refine ⟨_, hp.subset (List.getElem_mem hlt), ?_⟩
  simp only [TState.stepI, h1, Res.ok_bind, Tree.nth, h2, if_pos h3, List.getElem?_eq_getElem hlt]
  exact ⟨rfl, rfl⟩

/-- What a sequence of operations tells in both kinds of files. -/
def bothX (ops : List XOp) : List (Res TOut) × List (Res TOut) :=
  ((TState.log.runX .log true ops).2, (TState.plain.runX .plain false ops).2)

/-- The same calls in an ordinary file: the name, the token, and the removal of the only link. -/
example : bothX [.name (.create 0 "g".toList .group), .other (.nameIdx 0 "/".toList .name false 0),
      .other (.infoIdx 0 "/".toList .name false 0), .other (.deleteIdx 0 "/".toList .name false 0),
      .name (.exists 0 "g".toList)] =
    ([.ok (.obj 2), .err, .err, .err, .ok (.yes true)],
      [.ok (.obj 2), .ok (.names ["g".toList]), .ok (.obj 2), .ok .done, .ok (.yes false)]) := by decide +kernel

/-- **C97, violated.** The names of groups given to calls by index and to H5Gget_info_by_name are not mapped: group "_g" is
not found, and "__g" is taken for it. -/
theorem C97_group_violated :
    bothX [.name (.create 0 "_g".toList .group), .name (.create 1 "x".toList .dataset), .other (.openIdx 0 "_g".toList .name false 0),
        .other (.countName 0 "_g".toList), .other (.openIdx 0 "__g".toList .name false 0), .other (.countName 0 "__g".toList),
        .other (.countIdx 0 "/".toList .name false 0)] =
      ([.ok (.obj 2), .ok (.obj 3), .err, .err, .ok (.obj 3), .ok (.num 1), .ok (.num 0)],
        [.ok (.obj 2), .ok (.obj 3), .ok (.obj 3), .ok (.num 1), .err, .err, .ok (.num 1)]) := by decide +kernel

/-- **C97, violated.** H5Iget_name of an object opened with a name that starts with an underscore tells another name, and the
right one for all other paths. -/
theorem C97_name_violated {q : Name} (hq : Spec.PlainInside q) (hne : q ≠ []) :
    (TNames.log.told q = TNames.plain.told q ↔ ∀ c ∈ pathParts q, c.head? ≠ some '_') := by
  obtain ⟨n, hn⟩ : ∃ n, nameRemap q = .ok n := by
    unfold nameRemap
    rw [if_neg hne]
    split <;> exact ⟨_, rfl⟩
  have h1 : TNames.log.told q = .ok ('/' :: joinPath ((pathParts q).map escName)) := by
    unfold TNames.told
    show (nameRemap q >>= _) = _
    rw [hn, Res.ok_bind, pathParts_remap hq hn]
    rfl
  have h2 : TNames.plain.told q = .ok ('/' :: joinPath (pathParts q)) := by
    unfold TNames.told TNames.plain
    simp only [if_neg hne]
    rfl
  rw [h1, h2, Res.ok.injEq, List.cons.injEq, and_iff_right rfl, joinPath_esc_eq]

/-! ### Cases -/

/-- A session with names on both sides of the underscore. -/
def lookOps : List XOp :=
  [.name (.create 0 "b".toList .group), .name (.create 0 "_a".toList .group), .name (.create 0 "A".toList .dataset),
   .name (.create 1 "_x".toList .dataset), .other (.token 3), .other (.openToken 0 4), .name (.delete 0 "A".toList),
   .other (.openToken 0 7), .name (.create 0 "C".toList .group)]

example : (∀ op ∈ lookOps, Spec.FineX op) ∧ LeadsTo (TState.plain.runX .plain false lookOps).1 0 "/".toList 0 ∧
    LeadsTo (TState.plain.runX .plain false lookOps).1 0 "b".toList 2 ∧ Spec.PlainPath "/".toList ∧ Spec.PlainPath "b".toList ∧
    hiddenAt (namesIn (TState.plain.runX .plain false lookOps).1.tree 0) .name false = 1 ∧
    (TState.log.runX .log true lookOps).2 = [.ok (.obj 2), .ok (.obj 3), .ok (.obj 4), .ok (.obj 5), .ok (.obj 4), .ok (.obj 4),
      .ok .done, .err, .ok (.obj 6)] := by
  refine ⟨?_, ⟨0, by decide +kernel, by decide +kernel, by decide +kernel⟩,
    ⟨0, by decide +kernel, by decide +kernel, by decide +kernel⟩, ?_, ?_, by decide +kernel, by decide +kernel⟩
  · simp only [lookOps, List.mem_cons, List.not_mem_nil, or_false, forall_eq_or_imp, forall_eq, Spec.FineX, Spec.FineOp,
      Spec.PlainInside]
    decide +kernel
  · unfold Spec.PlainPath; decide +kernel
  · unfold Spec.PlainPath; decide +kernel

/-- Opening the four objects of its root group by index in the order of names. -/
example : (List.range 5).map (fun n => told ((TState.log.runX .log true lookOps).1.stepI true (.openIdx 0 "/".toList .name false n))) =
      [.ok (.obj 6), .ok (.obj 1), .ok (.obj 3), .ok (.obj 2), .err] ∧
    (List.range 5).map (fun n => told ((TState.plain.runX .plain false lookOps).1.stepI false (.openIdx 0 "/".toList .name false n))) =
      [.ok (.obj 6), .ok (.obj 3), .ok (.obj 2), .err, .err] := by decide +kernel

/-- Names that open the root group and what was created under a name. -/
example : told ((TState.log.runX .log true lookOps).1.step .log (.open 1 "/".toList (some .group))) = .ok (.obj 0) ∧
    told ((TState.log.runX .log true lookOps).1.step .log (.open 1 "_x".toList none)) = .ok (.obj 5) := by decide +kernel

/-- H5Iget_name of "_a". -/
example : TNames.log.told "_a".toList = .ok "/__a".toList ∧ TNames.plain.told "_a".toList = .ok "/_a".toList ∧
    Spec.PlainInside "_a".toList := by
  refine ⟨by decide +kernel, by decide +kernel, ?_⟩
  unfold Spec.PlainInside
  decide +kernel

end Verif.Props
