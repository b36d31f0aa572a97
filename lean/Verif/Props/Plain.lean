import Verif.Lemmas.Plain

/-
C79: files that were not written by the connector behave as if the connector below were used directly.
-/

namespace Verif.Props

open Verif.Plain

/-- A session with the file `f` through the connector. -/
def Plain.through {σ : Type} (f : Nat) (s : σ) : Verif.Plain.St σ := ⟨s, f, [(f, .file, .file)], 0⟩

/-- A session with the file `f` directly. -/
def Plain.direct {σ : Type} (f : Nat) (s : σ) : Direct σ := ⟨s, [(f, .file, false)]⟩

/-- Whatever the connector below does, as long as its queries of attributes change nothing: a session of harmless calls gets the
answers of a direct session, leaves the arguments alone, is never undefined, and leaves the connector below in the same
state. -/
theorem C79_same_partial {σ : Type} (U : Under σ) (hq : U.Quiet) (f : Nat) (s : σ) (cs : List Call)
    (h : Harmless U f (Plain.direct f s) false cs) :
    ∃ st, (Plain.through f s).run U cs = .ok (st, ((Plain.direct f s).run U cs).2) ∧
      st.below = ((Plain.direct f s).run U cs).1.below :=
  run_agree U hq cs _ _ false ⟨rfl, rfl, rfl, fun _ => rfl⟩ h

/-- A connector with `k` attributes on every object, which answers an index with the number of the attribute, opens and creates
whatever it is asked for (handles 10, 11, … in the order of the calls, datasets that are named `[]` do not exist),
and counts the calls that change something. -/
def Plain.store (k : Nat) : Under Nat where
  step s c :=
    match c with
    | .attrInfo _ (.idx n dec) => (s, if n < k then .ainfo (if dec then k - 1 - n else n) 0 else .failed)
    | .attrInfo _ _ => (s, .ainfo 0 0)
    | .attrName _ (.idx n dec) => (s, if n < k then .done (if dec then k - 1 - n else n) else .failed)
    | .attrName .. => (s, .done 0)
    | .attrCreate .. => (s + 1, .obj (10 + s) .attr)
    | .attrOpen _ (.idx n _) _ => if n < k then (s + 1, .obj (10 + s) .attr) else (s, .failed)
    | .attrOpen .. => (s + 1, .obj (10 + s) .attr)
    | .dsetOpen _ _ n => if n = [] then (s, .failed) else (s + 1, .obj (10 + s) .dataset)
    | .dsetCreate .. => (s + 1, .obj (10 + s) .dataset)
    | .groupCreate .. | .groupOpen .. => (s + 1, .obj (10 + s) .group)
    | .typeCommit .. | .typeOpen .. => (s + 1, .obj (10 + s) .datatype)
    | .objOpen .. => (s + 1, .obj (10 + s) .dataset)
    | .objInfo .. => (s, .info k 0)
    | _ => (s + 1, .done 0)

theorem Plain.store_quiet (k : Nat) : (Plain.store k).Quiet := by
  intro s o l
  cases l <;> exact ⟨rfl, rfl⟩

/-- A group with its attributes listed by index in both directions, a dataset that is created, written, closed and opened again, a
link moved, and the file closed at last. -/
example : ∃ st, (Plain.through 0 0).run (Plain.store 4)
      [.groupCreate 0 .self ['g'] 0, .attrName 10 (.idx 2 false), .attrName 10 (.idx 1 true), .attrInfo 10 (.idx 4 true),
        .dsetCreate 10 .self ['_', 'd'] false 0, .plain .dsetWrite 11 .self 5, .close 11, .dsetOpen 0 (.name ['_', 'd']) ['_', 'd'],
        .objOpen 0 (.name ['x']), .linkMove (some 0) (some 10) (.name ['a']) (.name ['b']) 0, .close 14, .close 10, .plain .groupGet 10 .self 0]
    = .ok (st, [⟨.obj 10 .group, .self⟩, ⟨.done 2, .idx 2 false⟩, ⟨.done 2, .idx 1 true⟩, ⟨.failed, .idx 4 true⟩,
        ⟨.obj 11 .dataset, .self⟩, ⟨.done 0, .self⟩, ⟨.done 0, .self⟩, ⟨.obj 14 .dataset, .name ['_', 'd']⟩,
        ⟨.obj 15 .dataset, .name ['x']⟩, ⟨.done 0, .name ['a']⟩, ⟨.done 0, .self⟩, ⟨.done 0, .self⟩, ⟨.failed, .self⟩]) ∧
      st.below = 9 := by
  refine C79_same_partial (Plain.store 4) (Plain.store_quiet 4) 0 0 _ ?_
  refine ⟨trivial, ⟨(by decide : 2 < 2 ^ 64), ?_⟩, ⟨(by decide : 1 < 2 ^ 64), ?_⟩, ⟨(by decide : 4 < 2 ^ 64), ?_⟩, rfl, trivial, ?_, trivial, trivial, ⟨rfl, rfl⟩, ?_, ?_, trivial, trivial⟩
  · intro _ h e; cases e; rfl
  · intro _ h e; cases e; rfl
  · intro h e; cases e; rfl
  · intro h e; cases e; exact ⟨fun _ => rfl, fun h => (by cases h), fun _ => by decide⟩
  · intro h e; cases e; exact ⟨fun _ => rfl, fun h => (by cases h), fun _ => by decide⟩
  · intro h e; cases e; exact ⟨fun h => (by cases h), fun h => (by cases h), fun _ => by decide⟩

/-- The file closed at last. -/
example : ∃ st, (Plain.through 0 0).run (Plain.store 4) [.groupOpen 0 .self ['g'], .close 10, .close 0, .close 0]
    = .ok (st, [⟨.obj 10 .group, .self⟩, ⟨.done 0, .self⟩, ⟨.done 0, .self⟩, ⟨.failed, .self⟩]) ∧ st.below = 3 := by
  refine C79_same_partial (Plain.store 4) (Plain.store_quiet 4) 0 0 _ ?_
  refine ⟨trivial, ?_, ?_, ?_, trivial⟩
  · intro h e; cases e; exact ⟨fun h => (by cases h), fun h => (by cases h), fun _ => by decide⟩
  · intro h e; cases e; exact ⟨fun h => (by cases h), fun _ => ⟨rfl, rfl, rfl, rfl⟩, fun h => absurd rfl h⟩
  · intro h e; cases e

/-- Asked for the name of attribute `n` of a file, the connector gives that of attribute `n + 1`; the last attribute has none.
Through a dataset the names are off by three. -/
theorem C79_index_violated (k n : Nat) (hn : n < k) (hk : k < 2 ^ 63) :
    (((Plain.direct 0 0).step (Plain.store k) (.attrName 0 (.idx n false))).2.ret = .done n) ∧
    (∃ st l, (Plain.through 0 0).step (Plain.store k) (.attrName 0 (.idx n false)) =
      .ok (st, ⟨if n + 1 < k then .done (n + 1) else .failed, l⟩)) ∧
    (∃ st l, (⟨0, 0, [(1, .dset, .dataset), (0, .file, .file)], 0⟩ : Verif.Plain.St Nat).step (Plain.store k) (.attrName 1 (.idx n false)) =
      .ok (st, ⟨if n + 3 < k then .done (n + 3) else .failed, l⟩)) := by
  have h1 : add64 n 1 = n + 1 := Nat.mod_eq_of_lt (by omega)
  have h3 : add64 n 3 = n + 3 := Nat.mod_eq_of_lt (by omega)
  refine ⟨?_, ?_, ?_⟩
  · simp [Direct.step, Plain.direct, Call.uses, Direct.typ, Plain.store, hn]
  · by_cases h : n + 1 < k
    · simp [Verif.Plain.St.step, Plain.through, Verif.Plain.St.of, indexed, internal, h1, Plain.store, h]
    · simp [Verif.Plain.St.step, Plain.through, Verif.Plain.St.of, indexed, internal, h1, Plain.store, h]
  · by_cases h : n + 3 < k
    · simp [Verif.Plain.St.step, Verif.Plain.St.of, indexed, internal, h3, Plain.store, h]
    · simp [Verif.Plain.St.step, Verif.Plain.St.of, indexed, internal, h3, Plain.store, h]

/-- In decreasing order the last index of a file and the last three of a dataset are refused, although the attributes exist. -/
theorem C79_decreasing_violated (k n : Nat) (hn : n < k) (hk : k < 2 ^ 63) :
    (((Plain.direct 0 0).step (Plain.store k) (.attrName 0 (.idx n true))).2.ret = .done (k - 1 - n)) ∧
    (∃ st l, (Plain.through 0 0).step (Plain.store k) (.attrName 0 (.idx n true)) =
      .ok (st, ⟨if n + 1 < k then .done (k - 1 - n) else .failed, l⟩)) ∧
    (∃ st l, (⟨0, 0, [(1, .dset, .dataset), (0, .file, .file)], 0⟩ : Verif.Plain.St Nat).step (Plain.store k) (.attrName 1 (.idx n true)) =
      .ok (st, ⟨if n + 3 < k then .done (k - 1 - n) else .failed, l⟩)) := by
  have h1 : add64 n 1 = n + 1 := Nat.mod_eq_of_lt (by omega)
  have h3 : add64 n 3 = n + 3 := Nat.mod_eq_of_lt (by omega)
  have s1 : sub64 (n + 1) 1 = n := by simp [sub64]
  have s3 : sub64 (n + 3) 3 = n := by simp [sub64]
  refine ⟨?_, ?_, ?_⟩
  · simp [Direct.step, Plain.direct, Call.uses, Direct.typ, Plain.store, hn]
  · by_cases h : n + 1 < k
    · simp [Verif.Plain.St.step, Plain.through, Verif.Plain.St.of, indexed, internal, h1, s1, Plain.store, h, hn]
    · simp [Verif.Plain.St.step, Plain.through, Verif.Plain.St.of, indexed, internal, h1, Plain.store, h]
  · by_cases h : n + 3 < k
    · simp [Verif.Plain.St.step, Verif.Plain.St.of, indexed, internal, h3, s3, Plain.store, h, hn]
    · simp [Verif.Plain.St.step, Verif.Plain.St.of, indexed, internal, h3, Plain.store, h]

/-- H5Aget_info through a file reports a creation order that is one too small, and 4294967295 for the first attribute. -/
theorem C79_order_violated (k : Nat) (n : Name) :
    (((Plain.direct 0 0).step (Plain.store k) (.attrInfo 0 (.name n))).2.ret = .ainfo 0 0) ∧
    (∃ st l, (Plain.through 0 0).step (Plain.store k) (.attrInfo 0 (.name n)) = .ok (st, ⟨.ainfo 4294967295 0, l⟩)) := by
  refine ⟨rfl, ?_⟩
  simp [Verif.Plain.St.step, Plain.through, Verif.Plain.St.of, indexed, internal, Plain.store, lessOrder, sub32]

/-- An attribute opened by index through a file leaves the index of the caller changed (to 2^64 - 1 for the first one), and
so does every query by index that fails. -/
theorem C79_arguments_violated {σ : Type} (U : Under σ) (f : Nat) (s : σ) (n : Name) (dec : Bool) (a : Nat) (i : Nat) (hi : i + 1 < 2 ^ 64)
    (ho : (U.step s (.attrOpen f (.idx 0 dec) n)).2 = .obj a .attr) (hf : (U.step s (.attrName f (.idx (i + 1) dec))).2 = .failed) :
    (∃ st, (Plain.through f s).step U (.attrOpen f (.idx 0 dec) n) = .ok (st, ⟨.obj a .attr, .idx 18446744073709551615 dec⟩)) ∧
    (∃ st, (Plain.through f s).step U (.attrName f (.idx i dec)) = .ok (st, ⟨.failed, .idx (i + 1) dec⟩)) := by
  have h1 : add64 i 1 = i + 1 := Nat.mod_eq_of_lt hi
  refine ⟨?_, ?_⟩
  · simp [Verif.Plain.St.step, Plain.through, Verif.Plain.St.of, internal, ho, Loc.map, sub64]
  · simp [Verif.Plain.St.step, Plain.through, Verif.Plain.St.of, indexed, internal, h1, hf]

example : ((Plain.store 2).step 0 (.attrOpen 0 (.idx 0 true) ['a'])).2 = .obj 10 .attr ∧
    ((Plain.store 2).step 0 (.attrName 0 (.idx (1 + 1) true))).2 = .failed := ⟨rfl, rfl⟩

/-- A dataset of strings of variable length cannot be created, whatever the connector below would do; it is not asked. -/
theorem C79_strings_violated {σ : Type} (U : Under σ) (f : Nat) (s : σ) (l : Loc) (n : Name) (x : Nat) :
    (((Plain.direct f s).step U (.dsetCreate f l n true x)).2.ret = (U.step s (.dsetCreate f l n true x)).2) ∧
    (Plain.through f s).step U (.dsetCreate f l n true x) = .ok (Plain.through f s, ⟨.failed, l⟩) := by
  refine ⟨?_, ?_⟩
  · simp [Direct.step, Plain.direct, Call.uses, Direct.typ]
  · simp [Verif.Plain.St.step, Plain.through, Verif.Plain.St.of]

/-- The connector below can create such a dataset. -/
example : ((Plain.direct 0 0).step (Plain.store 2) (.dsetCreate 0 .self ['d'] true 0)).2.ret = .obj 10 .dataset := rfl

/-- A dataset opened by H5Oopen cannot be closed: what happens is undefined, for any connector below that can close it. -/
theorem C79_oopen_violated {σ : Type} (U : Under σ) (f o : Nat) (s : σ) (l : Loc)
    (ho : (U.step s (.objOpen f l)).2 = .obj o .dataset) (hc : (U.step (U.step s (.objOpen f l)).1 (.close o)).2 = .done 0) :
    (((Plain.direct f s).run U [.objOpen f l, .close o]).2.map (·.ret) = [.obj o .dataset, .done 0]) ∧
    (Plain.through f s).run U [.objOpen f l, .close o] = .ub := by
  refine ⟨?_, ?_⟩
  · simp [Direct.run, Direct.step, Plain.direct, Call.uses, Direct.typ, ho, hc, Call.opens]
  · simp [Verif.Plain.St.run, Verif.Plain.St.step, Plain.through, Verif.Plain.St.of, wrap, Verif.Plain.St.add, ho, hc, byObject]

example : ((Plain.store 2).step 0 (.objOpen 0 .self)).2 = .obj 10 .dataset ∧
    ((Plain.store 2).step ((Plain.store 2).step 0 (.objOpen 0 .self)).1 (.close 10)).2 = .done 0 := ⟨rfl, rfl⟩

/-- H5Fclose succeeds whatever the connector below says; and it is not asked at all as long as another object is open, so that a
file whose closing should be refused, or should close the objects (H5Pset_fclose_degree), is neither. -/
theorem C79_close_violated {σ : Type} (U : Under σ) (f : Nat) (s : σ) :
    (((Plain.direct f s).step U (.close f)).2.ret = (U.step s (.close f)).2) ∧
    ((Plain.through f s).step U (.close f) = .ok (⟨(U.step s (.close f)).1, f, [], 0⟩, ⟨.done 0, .self⟩)) ∧
    (∀ o t c, o ≠ f → (⟨s, f, [(o, c, t), (f, .file, .file)], 0⟩ : Verif.Plain.St σ).step U (.close f) =
      .ok (⟨s, f, [(o, c, t)], 0⟩, ⟨.done 0, .self⟩)) := by
  refine ⟨?_, ?_, ?_⟩
  · simp [Direct.step, Plain.direct, Call.uses, Direct.typ, Call.loc]
  · simp [Verif.Plain.St.step, Plain.through, Verif.Plain.St.of, Verif.Plain.St.drop, Verif.Plain.St.refs]
  · intro o t c hne
    simp [Verif.Plain.St.step, Verif.Plain.St.of, Verif.Plain.St.drop, Verif.Plain.St.refs, hne]

/-- After a failed H5Dopen the file is never closed below: H5Fclose does nothing. -/
theorem C79_lost_violated {σ : Type} (U : Under σ) (f : Nat) (s : σ) (l : Loc) (n : Name) (hf : (U.step s (.dsetOpen f l n)).2 = .failed) :
    ∃ st, (Plain.through f s).run U [.dsetOpen f l n, .close f] = .ok (st, [⟨.failed, l⟩, ⟨.done 0, .self⟩]) ∧
      st.handles = [] ∧ st.below = (U.step s (.dsetOpen f l n)).1 := by
  simp [Verif.Plain.St.run, Verif.Plain.St.step, Plain.through, Verif.Plain.St.of, hf, Verif.Plain.St.drop, Verif.Plain.St.refs]

example : ((Plain.store 2).step 0 (.dsetOpen 0 .self [])).2 = .failed := rfl

/-- The number of attributes of an object is reported too small, by one for a file (by three for a dataset), and as 2^64 - 1 for a file
without attributes. -/
theorem C79_count_violated {σ : Type} (U : Under σ) (f : Nat) (s : σ) (l : Loc) (n x : Nat)
    (h : (U.step s (.objInfo f l)).2 = .info n x) :
    (((Plain.direct f s).step U (.objInfo f l)).2.ret = .info n x) ∧
    (∃ st, (Plain.through f s).step U (.objInfo f l) = .ok (st, ⟨.info (if n = 0 then 18446744073709551615 else n - 1) x, l⟩)) ∧
    (3 ≤ n → ∃ st, (⟨s, f, [(f, .dset, .dataset)], 0⟩ : Verif.Plain.St σ).step U (.objInfo f l) = .ok (st, ⟨.info (n - 3) x, l⟩)) := by
  refine ⟨?_, ?_, fun h3 => ?_⟩
  · simp [Direct.step, Plain.direct, Call.uses, Direct.typ, h]
  · simp only [Verif.Plain.St.step, Plain.through, Verif.Plain.St.of, List.find?_cons, beq_self_eq_true, Option.map_some, h, lessAttrs, internal]
    have e : sub64 n 1 = if n = 0 then 18446744073709551615 else n - 1 := by unfold sub64; split <;> split <;> omega
    rw [e]
    exact ⟨_, rfl⟩
  · simp only [Verif.Plain.St.step, Verif.Plain.St.of, List.find?_cons, beq_self_eq_true, Option.map_some, h, lessAttrs, internal]
    have e : sub64 n 3 = n - 3 := by unfold sub64; split <;> omega
    rw [e]
    exact ⟨_, rfl⟩

example : ((Plain.store 4).step 0 (.objInfo 0 .self)).2 = .info 4 0 := rfl

/-- H5Lmove with H5L_SAME_LOC as one of the locations is undefined, whatever the connector below would do. -/
theorem C79_move_violated {σ : Type} (U : Under σ) (f : Nat) (s : σ) (l1 l2 : Loc) (x : Nat) :
    (((Plain.direct f s).step U (.linkMove (some f) none l1 l2 x)).2.ret = (U.step s (.linkMove (some f) none l1 l2 x)).2) ∧
    (((Plain.direct f s).step U (.linkMove none (some f) l1 l2 x)).2.ret = (U.step s (.linkMove none (some f) l1 l2 x)).2) ∧
    (Plain.through f s).step U (.linkMove (some f) none l1 l2 x) = .ub ∧
    (Plain.through f s).step U (.linkMove none (some f) l1 l2 x) = .ub := by
  refine ⟨?_, ?_, ?_, ?_⟩ <;>
    simp [Direct.step, Plain.direct, Call.uses, Direct.typ, Verif.Plain.St.step, Plain.through, Verif.Plain.St.of]

/-- H5Fmount is undefined, whatever the connector below would do: it gets the structure of the connector for the file to be mounted. -/
theorem C79_mount_violated {σ : Type} (U : Under σ) (f g : Nat) (s : σ) (n : Name) (x : Nat) :
    (⟨s, [(f, .file, false), (g, .file, false)]⟩ : Direct σ).step U (.mount f g n x) =
      (⟨(U.step s (.mount f g n x)).1, [(f, .file, false), (g, .file, false)]⟩, ⟨(U.step s (.mount f g n x)).2, .self⟩) ∧
    (⟨s, f, [(f, .file, .file), (g, .file, .file)], 0⟩ : Verif.Plain.St σ).step U (.mount f g n x) = .ub := by
  constructor
  · simp only [Direct.step, Call.uses, Direct.typ, Call.loc]
    rw [if_pos]
    · cases (U.step s (.mount f g n x)).2 <;> rfl
    · by_cases h : f = g <;> simp [h]
  · by_cases h : f = g <;> simp [Verif.Plain.St.step, Verif.Plain.St.of, h]

end Verif.Props
