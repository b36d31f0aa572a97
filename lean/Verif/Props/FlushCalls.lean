import Verif.Model.Flush
import Verif.Props.Mode

/-
C86: flush calls through objects of the file.
-/

namespace Verif.Props

open Spec (AFile AW Reach Served ReqsOK Viewable Fresh Small Returns lastByte InBlk)
open Verif.Flush (Obj Below Call Ans call calls)

/-- **C86, names.** Every object of a file, log-based or ordinary, can be asked for the name of the file. -/
theorem C86_name (B : Below) (log : Bool) (doff : Nat) (st : FState) (o : Obj) :
    call B log doff st (.name o) = .ok ((B.name o.uo).elim .failed .name, st) := by
  cases o with | mk k u => cases k <;> rfl

/-- What the connector below says to a call. -/
def belowSays (B : Below) : Call → Ans
  | .file o => if B.fileFlush o.uo then .done else .failed
  | .object o => if B.objFlush o.uo then .done else .failed
  | .name o => match B.name o.uo with
    | some s => .name s
    | none => .failed

theorem call_object (B : Below) (log : Bool) (doff : Nat) (st : FState) (c : Call) (h : ∀ o, c ≠ .file o) :
    call B log doff st c = .ok (belowSays B c, st) := by
  cases c with
  | file o => exact absurd rfl (h o)
  | object o => cases o with | mk k u => cases k <;> rfl
  | name o =>
    rw [C86_name]
    simp only [belowSays]
    cases B.name o.uo <;> rfl

/-- **C86, other calls.** Any calls on objects other than H5Fflush are answered as the connector below says, and leave the file alone. -/
theorem C86_objects (B : Below) (log : Bool) (doff : Nat) (st : FState) : ∀ (cs : List Call), (∀ o, Call.file o ∉ cs) →
    calls B log doff st cs = .ok (cs.map (belowSays B), st)
  | [], _ => rfl
  | c :: cs, h => by
    have e := call_object B log doff st c (fun o ho => h o (by rw [ho]; exact List.mem_cons_self))
    simp [calls, e, C86_objects B log doff st cs (fun o ho => h o (List.mem_cons_of_mem _ ho))]

/-- **C86, ordinary files (partial).** All calls, with H5Fflush on handles of the file, are answered as the connector below says. -/
theorem C86_ordinary_partial (B : Below) (doff : Nat) (st : FState) : ∀ (cs : List Call), (∀ o, Call.file o ∈ cs → o.kind = .file) →
    calls B false doff st cs = .ok (cs.map (belowSays B), st)
  | [], _ => rfl
  | c :: cs, h => by
    have e : call B false doff st c = .ok (belowSays B c, st) := by
      cases c with
      | file o =>
        have := h o List.mem_cons_self
        obtain ⟨k, u⟩ := o
        simp only at this
        subst this
        rfl
      | object o => exact call_object B false doff st _ (fun o h => by cases h)
      | name o => exact call_object B false doff st _ (fun o h => by cases h)
    simp [calls, e, C86_ordinary_partial B doff st cs (fun o ho => h o (List.mem_cons_of_mem _ ho))]

theorem calls_append (B : Below) (log : Bool) (doff : Nat) : ∀ (cs ds : List Call) (st st1 st2 : FState) (as bs : List Ans),
    calls B log doff st cs = .ok (as, st1) → calls B log doff st1 ds = .ok (bs, st2) →
    calls B log doff st (cs ++ ds) = .ok (as ++ bs, st2)
  | [], ds, st, st1, st2, as, bs, h1, h2 => by cases h1; exact h2
  | c :: cs, ds, st, st1, st2, as, bs, h1, h2 => by
    rw [calls] at h1
    obtain ⟨r, hr, h1⟩ := Res.bind_ok h1
    obtain ⟨q, hq, h1⟩ := Res.bind_ok h1
    cases h1
    rw [List.cons_append, calls, hr, Res.ok_bind, calls_append B log doff cs ds r.2 q.2 st2 q.1 bs hq h2]
    rfl

/-- **C86, partial: H5Fflush with a handle of the file.** It succeeds, also between calls on any objects, which are answered as the connector below
says; and all reads made afterwards return all writes made before. -/
theorem C86_file_partial (cfg : Cfg) {st : FState} {a : AFile} (h : Reach cfg st a) {foff : Nat} (hff : Fresh st foff)
    {qs : List RReq} (hi : Served cfg st.compact a.flush.metaflush qs)
    (hq : ReqsOK st.compact a.dsets qs) (hv : Viewable qs) {r : Nat} (hr : r < a.queue.length)
    (hm : st.mbuf = none ∨ a.done ++ a.queue.flatten ≠ []) (hs : foff + Spec.queued a < 2 ^ 63) (asked : Bool) (B : Below) (u : Nat)
    (cs cs' : List Call) (hc : ∀ o, Call.file o ∉ cs) (hc' : ∀ o, Call.file o ∉ cs') :
    ∃ st1, calls B true foff st (cs ++ .file ⟨.file, u⟩ :: cs') = .ok (cs.map (belowSays B) ++ .done :: cs'.map (belowSays B), st1) ∧
      (Small st1 → ∀ {doff mdoff : Nat}, Fresh st1 doff → Fresh st1 mdoff →
      doff ≤ mdoff → ∃ st2, st1.dread asked doff mdoff = .ok st2 ∧ (Small st2 → Returns st2 r qs (a.done ++ a.queue.flatten))) := by
  obtain ⟨st1, h1, h2⟩ := C67_flush_partial cfg h hff hi hq hv hr hm hs asked
  refine ⟨st1, ?_, h2⟩
  refine calls_append B true foff cs _ st st st1 _ _ (C86_objects B true foff st cs hc) ?_
  have e : call B true foff st (.file ⟨.file, u⟩) = .ok (.done, st1) := by simp [call, Obj.look, Flush.Kind.fields, h1]
  simp [calls, e, C86_objects B true foff st1 cs' hc']

/-- **C86 is violated: H5Fflush with another object.** Whatever the state and the file, also an ordinary one, what happens is undefined. -/
theorem C86_flush_violated (B : Below) (log : Bool) (doff : Nat) (st : FState) (o : Obj) (h : o.kind ≠ .file) :
    call B log doff st (.file o) = .ub := by
  cases o with | mk k u => cases k <;> first | rfl | exact absurd rfl h

/-- Flush calls on objects change nothing in a log-based file. -/
theorem flush_objects (B : Below) (hB : ∀ u, B.objFlush u = true) (doff : Nat) (st : FState) (os : List Obj) :
    calls B true doff st (os.map .object) = .ok (os.map (fun _ => .done), st) := by
  rw [C86_objects B true doff st (os.map .object) (fun o ho => by simp at ho), List.map_map]
  congr 3
  funext o
  simp [belowSays, hB]

/-- **C86 is violated: H5Dflush, H5Oflush, H5Gflush, H5Tflush.** All processes call them for any objects; all calls succeed; but reads made
afterwards return only what H5Fflush had written out before, so that they do not return what has been written, if a queued write changes any
cell that is read. -/
theorem C86_object_violated (cfg : Cfg) {st : FState} {a : AFile} (h : Reach cfg st a) (hnp : a.queue.length ≠ 1)
    (he : a.epoch.flatten = []) {doff mdoff : Nat} (hf : Fresh st doff) (hf' : Fresh st mdoff) (hd : doff + Spec.queued a ≤ mdoff)
    {qs : List RReq} (hi : Served cfg st.compact a.metaflush qs) (hi' : Served cfg st.compact a.metaflush.flush.metaflush qs)
    (hq : ReqsOK st.compact a.dsets qs) (hv : Viewable qs) (hm : st.mbuf = none ∨ a.done ≠ [])
    {q : RReq} (hqm : q ∈ qs) {i : Nat} (hib : i < q.bs.length) {c : List Nat} (hc : InBlk q.bs[i] c) {k : Nat} (hk : k < q.d.esize)
    (hdiff : lastByte (a.done ++ a.queue.flatten) q.did c k ≠ lastByte a.done q.did c k)
    (B : Below) (hB : ∀ u, B.objFlush u = true) (foff : Nat) (os : List Obj) :
    ∃ st1 st2, calls B true foff st (os.map .object) = .ok (os.map (fun _ => .done), st1) ∧ st1.dread true doff mdoff = .ok st2 ∧
      (Small st2 → ∀ r < a.queue.length, Returns st2 r qs a.done ∧ ¬ Returns st2 r qs (a.done ++ a.queue.flatten)) := by
  obtain ⟨st2, h1, h2⟩ := C67_collective_violated cfg h hnp he hf hf' hd hi hi' hq hv hm hqm hib hc hk hdiff
  exact ⟨st, st2, flush_objects B hB foff st os, h1, h2⟩

/-! ### Cases -/

/-- Two processes have written, flush the dataset and the root group, and read: nothing of what they wrote is returned. -/
example (enc share compact : Bool) : ∃ st st1, Reach ⟨enc, share⟩ st gxFile ∧ gxFile.queue = [[fxA], [fxB]] ∧
    calls ⟨fun _ => true, fun _ => true, fun _ => none⟩ true 2000 st [.object ⟨.dset, 1⟩, .object ⟨.obj, 2⟩] = .ok ([.done, .done], st) ∧
    st.dread true 2000 3000 = .ok st1 ∧ ∀ r < 2, Returns st1 r [fxQ] [] ∧ ¬ Returns st1 r [fxQ] [fxA, fxB] := by
  have h : ∀ enc share compact, okWith (fun st => okWith (fun st1 =>
      decide (Fresh st 2000 ∧ Fresh st 3000 ∧ Small st1 ∧ st.mbuf = none)) (st.prepare false 2000 3000))
      (gxRun ⟨enc, share⟩ compact none) = true := by decide +kernel
  obtain ⟨st, h1, h2⟩ := okWith_iff (h enc share compact)
  obtain ⟨st1, h3, h4⟩ := okWith_iff h2
  rw [decide_eq_true_eq] at h4
  obtain ⟨st0, st2, g0, g1, g2⟩ := C86_object_violated _ (gx_reach h1) (by decide) rfl h4.1 h4.2.1 (by decide)
    ((indexable_short (by decide) (by decide)).served (fx_request _).1.wf) ((indexable_short (by decide) (by decide)).served (fx_request _).1.wf)
    (fx_request _).1 (fx_request st.compact).2
    (.inl h4.2.2.2) (q := fxQ) (by simp) (i := 0) (by decide) (c := [0, 0]) (by decide) (k := 0) (by decide) (by decide)
    ⟨fun _ => true, fun _ => true, fun _ => none⟩ (fun _ => rfl) 2000 [⟨.dset, 1⟩, ⟨.obj, 2⟩]
  have e0 := flush_objects ⟨fun _ => true, fun _ => true, fun _ => none⟩ (fun _ => rfl) 2000 st [⟨.dset, 1⟩, ⟨.obj, 2⟩]
  have e1 : st0 = st := by
    have := g0.symm.trans e0
    simpa using this
  subst e1
  have : st2 = st1 := by
    have := g1.symm.trans h3
    simpa using this
  subst this
  exact ⟨st0, st2, gx_reach h1, rfl, e0, g1, g2 h4.2.2.1⟩

/-- The same history with H5Fflush after H5Dflush and before H5Oflush, which fails. -/
example (enc share compact : Bool) : ∃ st st1, Reach ⟨enc, share⟩ st gxFile ∧
    calls ⟨fun _ => true, fun u => u == 1, fun _ => none⟩ true 1000 st [.object ⟨.dset, 1⟩, .file ⟨.file, 0⟩, .object ⟨.obj, 2⟩] =
      .ok ([.done, .done, .failed], st1) := by
  have h : ∀ enc share compact, okWith (fun st => decide (Fresh st 1000 ∧ st.mbuf = none))
      (gxRun ⟨enc, share⟩ compact none) = true := by decide +kernel
  obtain ⟨st, h1, h2⟩ := okWith_iff (h enc share compact)
  rw [decide_eq_true_eq] at h2
  obtain ⟨st1, h3, _⟩ := C86_file_partial _ (gx_reach h1) h2.1 ((indexable_short (by decide) (by decide)).served (fx_request _).1.wf)
    (fx_request _).1 (fx_request st.compact).2 (r := 0) (by decide) (.inl h2.2) (by decide) true
    ⟨fun _ => true, fun u => u == 1, fun _ => none⟩ 0 [.object ⟨.dset, 1⟩] [.object ⟨.obj, 2⟩] (fun o ho => by simp at ho) (fun o ho => by simp at ho)
  exact ⟨st, st1, gx_reach h1, h3⟩

/-- A connector below that fails. -/
example (st : FState) : calls ⟨fun _ => false, fun u => u == 2, fun _ => none⟩ false 0 st [.file ⟨.file, 0⟩, .object ⟨.dset, 1⟩, .object ⟨.obj, 2⟩, .name ⟨.obj, 2⟩]
    = .ok ([.failed, .failed, .done, .failed], st) :=
  C86_ordinary_partial _ 0 st _ (fun o ho => by
    simp only [List.mem_cons, Call.file.injEq, reduceCtorEq, List.not_mem_nil, or_false] at ho
    rw [ho])

/-- The name is answered through a dataset; the flush is undefined. -/
example (st : FState) : call ⟨fun _ => true, fun _ => true, fun _ => some "f.h5"⟩ true 0 st (.name ⟨.dset, 1⟩) = .ok (.name "f.h5", st) ∧
    call ⟨fun _ => true, fun _ => true, fun _ => some "f.h5"⟩ false 0 st (.file ⟨.dset, 1⟩) = .ub := ⟨rfl, rfl⟩

end Verif.Props
