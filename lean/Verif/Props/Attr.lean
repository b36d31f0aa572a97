import Verif.Model.Attr
import Verif.Props.Names

/-
C34: attributes addressed by index.
-/

namespace Verif.Props

theorem dsetAttrs_length (user : List Name) : (dsetAttrs user).length = user.length + 3 := by
  unfold dsetAttrs
  simp

theorem dsetAttrs_names (l : List Name) :
    (dsetAttrs l).map (·.name) = ["_dims".toList, "_mdims".toList, "_ID".toList] ++ l := by
  unfold dsetAttrs
  apply List.ext_getElem?
  intro i
  rw [List.getElem?_map, List.getElem?_mapIdx, Option.map_map]
  cases (["_dims".toList, "_mdims".toList, "_ID".toList] ++ l)[i]? <;> rfl

theorem dsetAttrs_get (user : List Name) (n : Nat) :
    (dsetAttrs user)[n + 3]? = user[n]?.map (fun s => ⟨s, ((n + 3 : Nat) : Int)⟩) := by
  unfold dsetAttrs
  rw [List.getElem?_mapIdx]
  simp

/-- `n`-th element in the given direction. -/
def Spec.nth {α : Type} (l : List α) (d : Dir) (n : Nat) : Option α :=
  match d with
  | .inc => l[n]?
  | .dec => if n < l.length then l[l.length - 1 - n]? else none

theorem nth_dec_reverse {α : Type} (l : List α) (n : Nat) : l.reverse[n]? = Spec.nth l .dec n := by
  show _ = if n < l.length then l[l.length - 1 - n]? else none
  by_cases h : n < l.length
  · rw [if_pos h, List.getElem?_reverse h]
  · rw [if_neg h, List.getElem?_eq_none (by simpa using h)]

theorem underAttr_eq (l : List UAttr) (d : Dir) (n : Nat) :
    underAttr l d n = match Spec.nth l d n with | some a => .ok a | none => .err := by
  cases d with
  | inc => rfl
  | dec =>
    rw [← nth_dec_reverse]
    rfl

theorem dsetAttrs_get_rev (user : List Name) (n : Nat) (h : n < user.length) :
    Spec.nth (dsetAttrs user) .dec n =
      user[user.length - 1 - n]?.map (fun s => ⟨s, ((user.length - 1 - n + 3 : Nat) : Int)⟩) := by
  show (if n < (dsetAttrs user).length then (dsetAttrs user)[(dsetAttrs user).length - 1 - n]? else none) = _
  rw [dsetAttrs_length, if_pos (by omega)]
  have : user.length + 3 - 1 - n = (user.length - 1 - n) + 3 := by omega
  rw [this, dsetAttrs_get]

/-- **C34, increasing order (partial).** Opening and querying the attributes of a dataset of a log-based file by index, in
increasing creation order, gives exactly the user attributes with their creation order; an index outside fails. -/
theorem C34_increasing_partial (user : List Name) (n : Nat) :
    (∀ s, user[n]? = some s → ∃ a, attrOpenIdx true .dataset (dsetAttrs user) .inc n = .ok a ∧
      attrGetIdx .dataset (dsetAttrs user) .inc n = .ok a ∧ a.name = s ∧ attrCorder .dataset a = n) ∧
    (user[n]? = none → attrOpenIdx true .dataset (dsetAttrs user) .inc n = .err ∧
      attrGetIdx .dataset (dsetAttrs user) .inc n = .err) := by
  have e : underAttr (dsetAttrs user) .inc (n + 3) =
      match user[n]?.map (fun s => (⟨s, ((n + 3 : Nat) : Int)⟩ : UAttr)) with | some a => .ok a | none => .err := by
    unfold underAttr
    simp only [dsetAttrs_get]
    rfl
  refine ⟨?_, ?_⟩
  · intro s hs
    rw [hs] at e
    refine ⟨⟨s, ((n + 3 : Nat) : Int)⟩, e, ?_, rfl, ?_⟩
    · show (underAttr (dsetAttrs user) .inc (n + 3) >>= fun a => (pure a : Res UAttr)) = _
      rw [e]
      rfl
    · show ((n + 3 : Nat) : Int) - ((3 : Nat) : Int) = n
      omega
  · intro hs
    rw [hs] at e
    refine ⟨e, ?_⟩
    show (underAttr (dsetAttrs user) .inc (n + 3) >>= fun a => (pure a : Res UAttr)) = _
    rw [e]
    rfl

/-- **C34, decreasing order, queries (partial).** Names and information of the attributes by index in decreasing creation
order are those of the user attributes from the last one on; an index outside fails. -/
theorem C34_decreasing_partial (user : List Name) (n : Nat) :
    (∀ s, Spec.nth user .dec n = some s → ∃ a, attrGetIdx .dataset (dsetAttrs user) .dec n = .ok a ∧ a.name = s) ∧
    (Spec.nth user .dec n = none → attrGetIdx .dataset (dsetAttrs user) .dec n = .err) := by
  have hget : attrGetIdx .dataset (dsetAttrs user) .dec n =
      (underAttr (dsetAttrs user) .dec (n + 3) >>= fun _ => underAttr (dsetAttrs user) .dec n) := rfl
  have hn : Spec.nth user .dec n = if n < user.length then user[user.length - 1 - n]? else none := rfl
  by_cases h : n < user.length
  · rw [if_pos h] at hn
    have h3 : ∃ b, underAttr (dsetAttrs user) .dec (n + 3) = .ok b := by
      rw [underAttr_eq]
      have : Spec.nth (dsetAttrs user) .dec (n + 3) = (dsetAttrs user)[user.length + 3 - 1 - (n + 3)]? := by
        show (if n + 3 < (dsetAttrs user).length then (dsetAttrs user)[(dsetAttrs user).length - 1 - (n + 3)]? else none) = _
        rw [dsetAttrs_length, if_pos (by omega)]
      rw [this, List.getElem?_eq_getElem (by rw [dsetAttrs_length]; omega)]
      exact ⟨_, rfl⟩
    obtain ⟨b, h3⟩ := h3
    rw [hget, h3, Res.ok_bind, underAttr_eq, dsetAttrs_get_rev user n h, hn]
    refine ⟨?_, ?_⟩
    · intro s hs
      rw [hs]
      exact ⟨_, rfl, rfl⟩
    · intro hs
      rw [List.getElem?_eq_getElem (by omega)] at hs
      cases hs
  · rw [if_neg h] at hn
    refine ⟨fun s hs => ?_, fun _ => ?_⟩
    · rw [hn] at hs
      cases hs
    have h3 : underAttr (dsetAttrs user) .dec (n + 3) = .err := by
      rw [underAttr_eq]
      have : Spec.nth (dsetAttrs user) .dec (n + 3) = none := by
        show (if n + 3 < (dsetAttrs user).length then (dsetAttrs user)[(dsetAttrs user).length - 1 - (n + 3)]? else none) = _
        rw [dsetAttrs_length, if_neg (by omega)]
      rw [this]
    rw [hget, h3]
    rfl

/-- **C34, iteration (partial).** Iterating from the start calls the user's callback with exactly the names of the user
attributes, in order, up to the first one it stops at; internal attributes are never shown. -/
theorem C34_iterate_partial (user stored : List Name) (hs : user.map nameRemap = stored.map Res.ok) (stop : Name → Bool) :
    attrIterate stop 0 (dsetAttrs stored) = underIterate stop user := by
  have hn : (dsetAttrs stored).map (·.name) = ["_dims".toList, "_mdims".toList, "_ID".toList] ++ stored := by
    exact dsetAttrs_names stored
  unfold attrIterate
  rw [List.drop_zero, hn]
  have h1 : ∀ l, (underIterate (fun s => ((nameShown s).map stop).getD false)
      (["_dims".toList, "_mdims".toList, "_ID".toList] ++ l)).filterMap nameShown =
      (underIterate (fun s => ((nameShown s).map stop).getD false) l).filterMap nameShown := by
    intro l
    have i1 : nameShown "_dims".toList = none := by decide
    have i2 : nameShown "_mdims".toList = none := by decide
    have i3 : nameShown "_ID".toList = none := by decide
    simp only [List.cons_append, List.nil_append, underIterate, i1, i2, i3, Option.map_none, Option.getD_none,
      Bool.false_eq_true, if_false, List.filterMap_cons]
  rw [h1]
  induction user generalizing stored with
  | nil =>
    cases stored with
    | nil => rfl
    | cons a l => simp at hs
  | cons u us ih =>
    cases stored with
    | nil => simp at hs
    | cons s ss =>
      simp only [List.map_cons, List.cons.injEq] at hs
      have hshow := C31_reported s u hs.1
      simp only [underIterate, hshow, Option.map_some, Option.getD_some]
      by_cases h : stop u = true
      · rw [if_pos h, if_pos h]
        simp [hshow]
      · rw [if_neg h, if_neg h, List.filterMap_cons, hshow]
        have hn' : (dsetAttrs ss).map (·.name) = ["_dims".toList, "_mdims".toList, "_ID".toList] ++ ss := by
          exact dsetAttrs_names ss
        rw [ih ss hs.2 hn']

/-- **C34 is violated: opening in decreasing order.** The index is shifted also when counting from the back: for every list
of user attributes, opening number `n` gives user attribute number `n + 3` from the back, or one of the internal attributes
when there are not that many. -/
theorem C34_open_violated (user : List Name) (n : Nat) (h : n < user.length) :
    ∃ a, attrOpenIdx true .dataset (dsetAttrs user) .dec n = .ok a ∧
      ((n + 3 < user.length ∧ Spec.nth user .dec (n + 3) = some a.name) ∨
        (user.length ≤ n + 3 ∧ InternalName a.name)) := by
  have e : attrOpenIdx true .dataset (dsetAttrs user) .dec n = underAttr (dsetAttrs user) .dec (n + 3) := rfl
  rw [e, underAttr_eq]
  by_cases h3 : n + 3 < user.length
  · rw [dsetAttrs_get_rev user (n + 3) h3, List.getElem?_eq_getElem (by omega)]
    refine ⟨_, rfl, Or.inl ⟨h3, ?_⟩⟩
    show (if n + 3 < user.length then user[user.length - 1 - (n + 3)]? else none) = _
    rw [if_pos h3, List.getElem?_eq_getElem (by omega)]
  · have hk : Spec.nth (dsetAttrs user) .dec (n + 3) = (dsetAttrs user)[user.length - 1 - n]? := by
      show (if n + 3 < (dsetAttrs user).length then (dsetAttrs user)[(dsetAttrs user).length - 1 - (n + 3)]? else none) = _
      rw [dsetAttrs_length, if_pos (by omega)]
      congr 1
      omega
    rw [hk]
    obtain ⟨k, hkk⟩ : ∃ k, k = user.length - 1 - n := ⟨_, rfl⟩
    have hk3 : k < 3 := by omega
    rw [← hkk]
    have : k = 0 ∨ k = 1 ∨ k = 2 := by omega
    rcases this with rfl | rfl | rfl
    · exact ⟨⟨"_dims".toList, 0⟩, by simp [dsetAttrs], Or.inr ⟨by omega, InternalName.dims⟩⟩
    · exact ⟨⟨"_mdims".toList, 1⟩, by simp [dsetAttrs], Or.inr ⟨by omega, InternalName.mdims⟩⟩
    · exact ⟨⟨"_ID".toList, 2⟩, by simp [dsetAttrs], Or.inr ⟨by omega, InternalName.id⟩⟩

/-- **C34 is violated: order of names.** In the order of names an attribute `A` of the user comes before the internal
attributes; the user sees an internal attribute at index 0 and does not see its own. -/
theorem C34_name_violated :
    let l : List UAttr := [⟨"A".toList, 3⟩, ⟨"_ID".toList, 2⟩, ⟨"_dims".toList, 0⟩, ⟨"_mdims".toList, 1⟩]
    (∀ x ∈ dsetAttrs ["A".toList], x ∈ l) ∧ l.length = 4 ∧
    l.Pairwise (fun a b => a.name.map Char.toNat < b.name.map Char.toNat) ∧
    attrOpenIdx true .dataset l .inc 0 = .ok ⟨"_mdims".toList, 1⟩ ∧ attrOpenIdx true .dataset l .inc 1 = .err := by
  decide

/-- **C34 is violated: root group.** The internal attribute of the file is visible at index 0 when the root group is used. -/
theorem C34_root_violated (user : List UAttr) :
    attrOpenIdx true .group (⟨"_int_att".toList, 0⟩ :: user) .inc 0 = .ok ⟨"_int_att".toList, 0⟩ := rfl

/-- **C34 is violated: files that are not log-based.** Queries skip the first three attributes of a dataset although there
are no internal ones. -/
theorem C34_plain_violated (a b c d : UAttr) (l : List UAttr) :
    attrGetIdx .dataset (a :: b :: c :: d :: l) .inc 0 = .ok d ∧ attrOpenIdx false .dataset (a :: b :: c :: d :: l) .inc 0 = .ok a ∧
      attrGetIdx .dataset [a] .inc 0 = .err := ⟨rfl, rfl, rfl⟩

/-- **C34 is violated: start of an iteration.** An iteration that starts at index 1 does not skip the first user attribute. -/
theorem C34_start_violated : attrIterate (fun _ => false) 1 (dsetAttrs ["a".toList, "b".toList]) = ["a".toList, "b".toList] := by
  decide

/-! ### Concrete cases -/

example : attrOpenIdx true .dataset (dsetAttrs ["a".toList, "b".toList]) .inc 1 = .ok ⟨"b".toList, 4⟩ ∧
    attrGetIdx .dataset (dsetAttrs ["a".toList, "b".toList]) .dec 0 = .ok ⟨"b".toList, 4⟩ ∧
    attrOpenIdx true .dataset (dsetAttrs ["a".toList, "b".toList]) .dec 0 = .ok ⟨"_mdims".toList, 1⟩ := by decide

example : ["a".toList, "_b".toList].map nameRemap = ["a".toList, "__b".toList].map Res.ok ∧
    attrIterate (fun n => decide (n = "_b".toList)) 0 (dsetAttrs ["a".toList, "__b".toList, "c".toList]) =
      ["a".toList, "_b".toList] := by decide

end Verif.Props
