import Verif.Spec.Async

/-
C62: requests of asynchronous operations.
-/

namespace Verif.Props

open _root_.Verif.Spec (Waitable Leaks)

/-! ### Runs -/

/-- `publish` comes after an `append`, `append` after `new`; `n`: the object exists, `a`: it has a part. -/
def rqShaped : Bool → Bool → List RqAct → Bool
  | _, _, [] => true
  | _, _, .new :: as => rqShaped true false as
  | n, a, .call :: as => rqShaped n a as
  | n, a, .recall :: as => rqShaped n a as
  | n, a, .raw :: as => rqShaped n a as
  | n, _, .append :: as => n && rqShaped n true as
  | n, a, .publish :: as => n && a && rqShaped n a as

/-- What a run maintains: every object was made without a connector, and one that is given to the application has a part. -/
structure RqInv (n a : Bool) (s : RqSt) : Prop where
  rp : ∀ q, s.rp = some q → q.uvlid = none
  has : n = true → ∃ q, s.rp = some q
  part : a = true → ∀ q, s.rp = some q → q.parts ≠ []
  out : ∀ q, s.out = some (.obj q) → q.uvlid = none ∧ q.parts ≠ []

theorem rqInv_init (ans : List UAns) : RqInv false false (rqInit ans) :=
  ⟨by simp [rqInit], by simp, by simp, by simp [rqInit]⟩

theorem rqInv_run : ∀ (as : List RqAct) (n a : Bool) (s : RqSt), rqShaped n a as = true → RqInv n a s →
    ∃ n' a', RqInv n' a' (rqRun as s)
  | [], n, a, s, _, h => ⟨n, a, h⟩
  | .new :: as, n, a, s, hs, h => by
    simp only [rqRun, rqStep, if_true]
    exact rqInv_run as true false _ hs ⟨by simp, by simp, by simp, h.out⟩
  | .call :: as, n, a, s, hs, h => by
    simp only [rqRun, rqStep]
    rcases s with ⟨ans, u, rp, out, iss, er⟩
    cases ans with
    | nil => exact rqInv_run as n a _ hs h
    | cons x xs =>
      cases x with
      | fails => exact ⟨n, a, h.rp, h.has, h.part, h.out⟩
      | now => exact rqInv_run as n a _ hs ⟨h.rp, h.has, h.part, h.out⟩
      | later k => exact rqInv_run as n a _ hs ⟨h.rp, h.has, h.part, h.out⟩
  | .recall :: as, n, a, s, hs, h => by
    simp only [rqRun, rqStep]
    rcases s with ⟨ans, u, rp, out, iss, er⟩
    cases ans with
    | nil => exact rqInv_run as n a _ hs h
    | cons x xs =>
      cases x with
      | fails => exact rqInv_run as n a _ hs ⟨h.rp, h.has, h.part, h.out⟩
      | now => exact rqInv_run as n a _ hs ⟨h.rp, h.has, h.part, h.out⟩
      | later k => exact rqInv_run as n a _ hs ⟨h.rp, h.has, h.part, h.out⟩
  | .raw :: as, n, a, s, hs, h => by
    simp only [rqRun, rqStep]
    rcases s with ⟨ans, u, rp, out, iss, er⟩
    cases ans with
    | nil => exact rqInv_run as n a _ hs h
    | cons x xs =>
      cases x with
      | fails => exact ⟨n, a, h.rp, h.has, h.part, h.out⟩
      | now => exact rqInv_run as n a _ hs ⟨h.rp, h.has, h.part, h.out⟩
      | later k => exact rqInv_run as n a _ hs ⟨h.rp, h.has, h.part, by simp⟩
  | .append :: as, n, a, s, hs, h => by
    simp only [rqRun, rqStep, if_true]
    simp only [rqShaped, Bool.and_eq_true] at hs
    obtain ⟨q, hq⟩ := h.has hs.1
    refine rqInv_run as n true _ hs.2 ⟨?_, ?_, ?_, h.out⟩
    · intro q' hq'; simp only [hq, Option.map_some, Option.some.injEq] at hq'; rw [← hq']; exact h.rp q hq
    · intro _; simp [hq]
    · intro _ q' hq'; simp only [hq, Option.map_some, Option.some.injEq] at hq'; rw [← hq']; simp
  | .publish :: as, n, a, s, hs, h => by
    simp only [rqRun, rqStep, if_true]
    simp only [rqShaped, Bool.and_eq_true] at hs
    obtain ⟨q, hq⟩ := h.has hs.1.1
    refine rqInv_run as n a _ hs.2 ⟨h.rp, h.has, h.part, ?_⟩
    intro q' hq'
    simp only [hq, Option.map_some, Option.some.injEq, RqOut.obj.injEq] at hq'
    rw [← hq']
    exact ⟨h.rp q hq, h.part hs.1.2 q hq⟩

/-- Every callback has this shape. -/
theorem rq_shaped : ∀ c ∈ rqCallbacks, rqShaped false false c.acts = true := by decide

theorem rqInv_cb {c : RqCb} (hc : c ∈ rqCallbacks) (ans : List UAns) :
    ∀ q, (rqRun c.acts (rqInit ans)).out = some (.obj q) → q.uvlid = none ∧ q.parts ≠ [] := by
  obtain ⟨_, _, h⟩ := rqInv_run c.acts false false _ (rq_shaped c hc) (rqInv_init ans)
  exact h.out

/-! ### Parts are appended in progress -/

def RqFresh (q : RqObj) : Prop := ∀ p ∈ q.parts, p.2 = RStat.progress

theorem rqFresh_run : ∀ (as : List RqAct) (s : RqSt), (∀ q, s.rp = some q → RqFresh q) → (∀ q, s.out = some (.obj q) → RqFresh q) →
    ∀ q, (rqRun as s).out = some (.obj q) → RqFresh q
  | [], _, _, h2 => h2
  | x :: as, s, h1, h2 => by
    have key : (∀ q, (rqStep s x).1.rp = some q → RqFresh q) ∧ (∀ q, (rqStep s x).1.out = some (.obj q) → RqFresh q) := by
      rcases s with ⟨ans, u, rp, out, iss, er⟩
      cases x with
      | new =>
        refine ⟨?_, h2⟩
        intro q hq
        cases hq
        intro p hp
        cases hp
      | call => cases ans with
        | nil => exact ⟨h1, h2⟩
        | cons y ys => cases y <;> exact ⟨h1, h2⟩
      | recall => cases ans with
        | nil => exact ⟨h1, h2⟩
        | cons y ys => cases y <;> exact ⟨h1, h2⟩
      | raw => cases ans with
        | nil => exact ⟨h1, h2⟩
        | cons y ys =>
          cases y with
          | fails => exact ⟨h1, h2⟩
          | now => exact ⟨h1, h2⟩
          | later k => exact ⟨h1, by simp [rqStep]⟩
      | append =>
        refine ⟨?_, h2⟩
        intro q hq
        cases rp with
        | none => simp [rqStep] at hq
        | some q0 =>
          simp only [rqStep, Option.map_some, Option.some.injEq] at hq
          subst hq
          intro p hp
          rcases List.mem_append.1 hp with hp | hp
          · exact h1 q0 rfl p hp
          · simp only [List.mem_singleton] at hp; rw [hp]
      | publish =>
        refine ⟨h1, ?_⟩
        intro q hq
        cases rp with
        | none => simp [rqStep] at hq
        | some q0 =>
          simp only [rqStep, Option.map_some, Option.some.injEq, RqOut.obj.injEq] at hq
          subst hq
          exact h1 q0 rfl
    unfold rqRun
    split
    · exact rqFresh_run as _ key.1 key.2
    · exact key.2

theorem rqFresh_cb (c : RqCb) (ans : List UAns) : ∀ q, (rqRun c.acts (rqInit ans)).out = some (.obj q) → RqFresh q :=
  rqFresh_run c.acts _ (by simp [rqInit]) (by simp [rqInit])

/-! ### What the application can do with a request -/

/-- C62 is violated: the class of the connector has no request callbacks, so the library refuses to wait for any request. -/
theorem C62_class_violated (stat : Nat → RStat) (live : List Nat) (o : RqOut) : appWait rqInstalled stat live o = .err := rfl

/-- C62 is violated also if the class had the callbacks of src/H5VL_log_req.cpp: whatever callback hands out a request of the connector, and whatever the under VOL has answered and will
report, waiting for the request fails, and so do registering a callback, cancelling and freeing: the object was made by the
default constructor, whose connector id is −1 (src/H5VL_log_obji.cpp L57-65), and no callback sets it. -/
theorem C62_wait_violated {c : RqCb} (hc : c ∈ rqCallbacks) (ans : List UAns) (q : RqObj)
    (h : (rqRun c.acts (rqInit ans)).out = some (.obj q)) (stat : Nat → RStat) (live : List Nat) (f : Nat → Bool) :
    rqWait stat live (.obj q) = .err ∧ rqFree f (.obj q) = .err := by
  obtain ⟨h1, h2⟩ := rqInv_cb hc ans q h
  have h3 := rqFresh_cb c ans q h
  obtain ⟨v, ps⟩ := q
  simp only at h1 h2
  subst h1
  cases ps with
  | nil => exact absurd rfl h2
  | cons p ps =>
    obtain ⟨p, st⟩ := p
    have : st = .progress := h3 (p, st) List.mem_cons_self
    subst this
    exact ⟨rfl, rfl⟩

/-- C62 is violated for callbacks that pass on the place of the application: what they hand out is a request of the under VOL, and waiting for it, registering a
callback, cancelling and freeing take it for an object of the connector. -/
theorem C62_foreign_violated (k : Nat) (stat : Nat → RStat) (live : List Nat) (f : Nat → Bool) :
    (rqRun [.raw] (rqInit [.later k])).out = some (.under k) ∧ rqWait stat live (.under k) = .ub ∧ rqFree f (.under k) = .ub :=
  ⟨rfl, rfl, rfl⟩

example : (rqRun rqCommon (rqInit [.later 7])).out = some (.obj ⟨none, [(some 7, .progress)]⟩) := by decide

/-- C62, exactly when a callback is as expected, with and without request callbacks in the class: it is waitable just if it hands
out nothing and the under VOL has nothing left to do.  Every request that is handed out is useless (those of the connector cannot be waited for, those of the under VOL
are taken for something else). -/
theorem C62_exact_partial (inst : Bool) {c : RqCb} (hc : c ∈ rqCallbacks) (ans : List UAns) :
    Waitable inst (rqRun c.acts (rqInit ans)) ↔
      (rqRun c.acts (rqInit ans)).out = none ∧ (rqRun c.acts (rqInit ans)).issued = [] := by
  unfold Waitable
  cases ho : (rqRun c.acts (rqInit ans)).out with
  | none => simp
  | some o =>
    simp only [reduceCtorEq, false_and, iff_false]
    intro hw
    obtain ⟨st, h, -⟩ := hw (fun _ => .succeed) (by simp)
    unfold appWait at h
    cases inst with
    | false => cases h
    | true =>
    simp only [if_true] at h
    cases o with
    | under k => cases h
    | obj q => rw [(C62_wait_violated hc ans q ho _ _ (fun _ => true)).1] at h; cases h

/-- Callbacks that pass on the place of the application are waitable with an under VOL that completes everything at once. -/
example (inst : Bool) : Waitable inst (rqRun [.raw] (rqInit [.now])) ∧ ¬ Waitable inst (rqRun [.raw] (rqInit [.later 3])) := by
  have h1 : (⟨"object open, src/H5VL_log_obj.cpp L68", [.raw]⟩ : RqCb) ∈ rqCallbacks := by decide
  exact ⟨(C62_exact_partial inst h1 [.now]).2 (by decide), fun h => absurd ((C62_exact_partial inst h1 [.later 3]).1 h) (by decide)⟩

/-- Without failures the object stays, and so does the absence of failures. -/
theorem rqRun_new : ∀ (as : List RqAct) (s : RqSt), UAns.fails ∉ s.ans → (∃ q, s.rp = some q) →
    ∃ q, (rqRun (as ++ [.publish]) s).out = some (.obj q)
  | [], s, _, ⟨q, hq⟩ => ⟨q, by simp [rqRun, rqStep, hq]⟩
  | x :: as, s, hf, ⟨q, hq⟩ => by
    have key : (rqStep s x).2 = true ∧ UAns.fails ∉ (rqStep s x).1.ans ∧ ∃ q, (rqStep s x).1.rp = some q := by
      rcases s with ⟨ans, u, rp, out, iss, er⟩
      simp only at hf hq
      subst hq
      cases x with
      | new => exact ⟨rfl, hf, _, rfl⟩
      | append => exact ⟨rfl, hf, _, rfl⟩
      | publish => exact ⟨rfl, hf, _, rfl⟩
      | call => cases ans with
        | nil => exact ⟨rfl, hf, _, rfl⟩
        | cons y ys => cases y <;> first | exact absurd List.mem_cons_self hf | exact ⟨rfl, fun h => hf (List.mem_cons_of_mem _ h), _, rfl⟩
      | recall => cases ans with
        | nil => exact ⟨rfl, hf, _, rfl⟩
        | cons y ys => cases y <;> first | exact absurd List.mem_cons_self hf | exact ⟨rfl, fun h => hf (List.mem_cons_of_mem _ h), _, rfl⟩
      | raw => cases ans with
        | nil => exact ⟨rfl, hf, _, rfl⟩
        | cons y ys => cases y <;> first | exact absurd List.mem_cons_self hf | exact ⟨rfl, fun h => hf (List.mem_cons_of_mem _ h), _, rfl⟩
    simp only [List.cons_append, rqRun, if_pos key.1]
    exact rqRun_new as _ key.2.1 key.2.2

/-- C62 is violated by every callback that hands out a request of the connector, whatever the under VOL answers, as long as it
does not fail: there is always a request, and it can never be waited for. -/
theorem C62_all_violated (inst : Bool) {c : RqCb} (hc : c ∈ rqCallbacks) (hp : RqAct.publish ∈ c.acts) (ans : List UAns)
    (hf : UAns.fails ∉ ans) : (∃ q, (rqRun c.acts (rqInit ans)).out = some (.obj q)) ∧ ¬ Waitable inst (rqRun c.acts (rqInit ans)) := by
  have hall : ∀ c ∈ rqCallbacks, RqAct.publish ∈ c.acts → c.acts = .new :: (c.acts.tail.dropLast ++ [.publish]) := by decide
  have h : ∃ q, (rqRun c.acts (rqInit ans)).out = some (.obj q) := by
    rw [hall c hc hp]
    simp only [rqRun, rqStep, if_true]
    exact rqRun_new _ _ hf ⟨_, rfl⟩
  refine ⟨h, fun hw => ?_⟩
  obtain ⟨q, hq⟩ := h
  rw [((C62_exact_partial inst hc ans).1 hw).1] at hq
  cases hq

example : (rqCallbacks.filter fun c => decide (RqAct.publish ∈ c.acts)).length = 26 := by decide

/-! ### What would hold if the connector were set -/

/-- The object with its connector set. -/
def withVol (v : Nat) (s : RqSt) : RqSt :=
  { s with out := s.out.map fun
      | .obj q => .obj { q with uvlid := some v }
      | o => o }

/-- A callback of the common form with any number of calls. -/
def rqMulti (n : Nat) : List RqAct := .new :: ((List.replicate n [.call, .append]).flatten ++ [.publish])

theorem rqMulti_one : rqMulti 1 = rqCommon := rfl

theorem rqMulti_run : ∀ (ks : List Nat) (u : Option Nat) (ps : List (Option Nat × RStat)) (iss : List Nat),
    (rqRun ((List.replicate ks.length [.call, .append]).flatten ++ [.publish])
      ⟨ks.map .later, u, some ⟨none, ps⟩, none, iss, false⟩).out = some (.obj ⟨none, ps ++ ks.map fun k => (some k, .progress)⟩) ∧
    (rqRun ((List.replicate ks.length [RqAct.call, .append]).flatten ++ [.publish])
      ⟨ks.map .later, u, some ⟨none, ps⟩, none, iss, false⟩).issued = iss ++ ks
  | [], u, ps, iss => by simp [rqRun, rqStep]
  | k :: ks, u, ps, iss => by
    simp only [List.length_cons, List.replicate_succ, List.flatten_cons, List.cons_append, List.nil_append, List.map_cons, rqRun,
      rqStep, if_true, Option.map_some]
    have := rqMulti_run ks (some k) (ps ++ [(some k, .progress)]) (iss ++ [k])
    simpa using this

theorem combine_acc (a st : RStat) (ha : a ≠ .progress) (hs : st ≠ .progress) :
    (combine a st = .succeed ↔ a = .succeed ∧ st = .succeed) ∧ combine a st ≠ .progress := by
  cases a <;> cases st <;> simp_all [combine]

theorem rqWaitLoop_ok (v : Nat) (stat : Nat → RStat) (hst : ∀ h, stat h ≠ .progress) :
    ∀ (ks live : List Nat) (acc : RStat), ks.Nodup → (∀ k ∈ ks, k ∈ live) → acc ≠ .progress →
    ∃ st, rqWaitLoop (some v) stat live (ks.map fun k => (some k, .progress)) acc = .ok st ∧
      (st = .succeed ↔ acc = .succeed ∧ ∀ k ∈ ks, stat k = .succeed)
  | [], live, acc, _, _, _ => ⟨acc, rfl, by simp⟩
  | k :: ks, live, acc, hn, hl, ha => by
    obtain ⟨hk, hn⟩ := List.nodup_cons.1 hn
    have h1 := hl k List.mem_cons_self
    have hc := combine_acc acc (stat k) ha (hst k)
    obtain ⟨st, e, hs⟩ := rqWaitLoop_ok v stat hst ks (live.filter (· != k)) (combine acc (stat k)) hn
      (by
        intro j hj
        rw [List.mem_filter]
        refine ⟨hl j (List.mem_cons_of_mem _ hj), ?_⟩
        have : j ≠ k := by rintro rfl; exact hk hj
        simpa using this) hc.2
    refine ⟨st, ?_, ?_⟩
    · simp only [List.map_cons, rqWaitLoop, if_true, uReqWait, if_pos h1, if_neg (hst k), Res.bind]
      exact e
    · rw [hs, hc.1]
      simp only [List.mem_cons, forall_eq_or_imp, and_assoc]

/-- C62, partial: for callbacks of the common form with any number of calls, all answered by requests of their own, the
connector id and the callbacks in the class are all that is missing: with them, the operation is waitable. -/
theorem C62_parts_partial (v : Nat) (ks : List Nat) (hn : ks.Nodup) :
    Waitable true (withVol v (rqRun (rqMulti ks.length) (rqInit (ks.map .later)))) := by
  have hr : (rqRun (rqMulti ks.length) (rqInit (ks.map .later))) =
      rqRun ((List.replicate ks.length [.call, .append]).flatten ++ [.publish]) ⟨ks.map .later, none, some ⟨none, []⟩, none, [], false⟩ := by
    simp [rqMulti, rqRun, rqStep, rqInit]
  obtain ⟨h1, h2⟩ := rqMulti_run ks none [] []
  rw [← hr] at h1 h2
  unfold Waitable withVol
  simp only [h1, h2, Option.map_some, List.nil_append]
  intro stat hst
  obtain ⟨st, e, hs⟩ := rqWaitLoop_ok v stat hst ks ks .succeed hn (fun k hk => hk) (by simp)
  exact ⟨st, e, by simpa using hs⟩

example : [4, 9, 2].Nodup ∧ rqMulti [4, 9, 2].length =
    [.new, .call, .append, .call, .append, .call, .append, .publish] := by decide

/-- Even then, an operation that the under VOL completes at once yields a part that was never set, for every callback of the
common form; the native VOL completes everything at once. -/
theorem C62_now_violated (v : Nat) (stat : Nat → RStat) (live : List Nat) :
    (withVol v (rqRun rqCommon (rqInit [.now]))).out.map (rqWait stat live) = some .ub := rfl

/-- Even then, waiting for the creation of a dataset touches the request of the under VOL after it was released, whatever
status it ends with: the same request was appended four times. -/
theorem C62_create_violated (v k : Nat) (stat : Nat → RStat) (h : stat k ≠ .progress) : ∃ c ∈ rqCallbacks,
    c.name = "dataset create, src/H5VL_log_dataset.cpp L94-177" ∧
    (withVol v (rqRun c.acts (rqInit [.later k]))).out.map (rqWait stat [k]) = some .ub := by
  refine ⟨⟨_, [.new, .call, .append, .append, .append, .append, .publish]⟩, by decide, rfl, ?_⟩
  simp [withVol, rqRun, rqStep, rqInit, rqWait, rqWaitLoop, uReqWait, h, Res.bind]

/-- Even then, looking up an attribute by its index in decreasing order forgets the first of its two requests: waiting reports
success although that one has failed. -/
theorem C62_lost_violated (v k j : Nat) (hkj : k ≠ j) : ∃ stat : Nat → RStat, stat k = .fail ∧ ∃ c ∈ rqCallbacks,
    c.name = "attr get by index in decreasing order, src/H5VL_log_att.cpp L293-363" ∧
    (withVol v (rqRun c.acts (rqInit [.later k, .later j]))).out.map (rqWait stat [k, j]) = some (.ok .succeed) := by
  refine ⟨fun h => if h = k then .fail else .succeed, by simp, ⟨_, [.new, .call, .recall, .append, .publish]⟩, by decide, rfl, ?_⟩
  simp [withVol, rqRun, rqStep, rqInit, rqWait, rqWaitLoop, uReqWait, Res.bind, combine, Ne.symm hkj]

/-- In a file that is not log based, the request of the creation of a dataset is not handed out: it is lost, and the object
that holds it leaks. -/
theorem C62_unpublished_violated (inst : Bool) (k : Nat) :
    ¬ Waitable inst (rqRun [.new, .call, .append] (rqInit [.later k])) ∧ Leaks (rqRun [.new, .call, .append] (rqInit [.later k])) := by
  constructor
  · intro h
    have := ((C62_exact_partial inst (c := ⟨"dataset create, other files, src/H5VL_log_dataset.cpp L94-108", [.new, .call, .append]⟩)
      (by decide) [.later k]).1 h).2
    simp [rqRun, rqStep, rqInit] at this
  · exact ⟨⟨none, [(some k, .progress)]⟩, rfl, by intro q' h; cases h⟩

/-- Every callback that makes an object leaks it if the first call of the under VOL fails; whatever the callback is. -/
theorem C62_leak_violated {c : RqCb} (hc : c ∈ rqCallbacks) (hnew : RqAct.new ∈ c.acts) (ans : List UAns) :
    Leaks (rqRun c.acts (rqInit (.fails :: ans))) := by
  have hall : ∀ c ∈ rqCallbacks, RqAct.new ∈ c.acts → (∃ as, c.acts = .new :: .call :: as) ∨ ∃ as, c.acts = .new :: .raw :: as := by
    have : ∀ c ∈ rqCallbacks, RqAct.new ∈ c.acts →
        (c.acts = .new :: .call :: c.acts.drop 2) ∨ c.acts = .new :: .raw :: c.acts.drop 2 := by decide
    intro c hc hn
    rcases this c hc hn with h | h
    · exact .inl ⟨_, h⟩
    · exact .inr ⟨_, h⟩
  rcases hall c hc hnew with ⟨as, e⟩ | ⟨as, e⟩
  · rw [e]; exact ⟨⟨none, []⟩, rfl, by intro q' h; cases h⟩
  · rw [e]; exact ⟨⟨none, []⟩, rfl, by intro q' h; cases h⟩

end Verif.Props
