import Verif.Spec.Args
import Verif.Lemmas.Pairs

/-
Queued reads with pointers and queued reads with blocks.
-/

namespace Verif

open Spec (values asked arrsAfter StillHolds vstep vrun VOp)

/-- A queued read with its blocks, and the address it got them from. -/
def srcOf (bs : List Blk) : Option Nat → Src
  | none => .own bs
  | some a => .app a bs.length

def toN (p : RReq × Option Nat) : NReq := ⟨p.1.did, p.1.d, srcOf p.1.bs p.2, p.1.xbuf⟩

def ptrOf (r : Nat) (bs : List Blk) : Option Nat → List (Nat × Nat × List Blk)
  | none => []
  | some a => [(r, a, bs)]

/-- Same file and memory, and queues that differ only in where the blocks are; `A`: the reads with pointers. -/
structure Alike (s : NState) (q : QState) (A : List (Nat × Nat × List Blk)) (G : List (List (RReq × Option Nat))) : Prop where
  rq : s.rq = G.map (·.map toN)
  vq : q.rq = G.map (·.map (·.1))
  st : s.st = q.st
  mem : s.mem = q.mem
  ptr : ∀ r a bs, (∃ l, G[r]? = some l ∧ ∃ x, (x, some a) ∈ l ∧ x.bs = bs) ↔ (r, a, bs) ∈ A

theorem blocks_length {m : Arrs} {addr n : Nat} {bs : List Blk} (h : m.blocks addr n = .ok bs) : bs.length = n := by
  unfold Arrs.blocks at h
  split at h
  · split at h
    · simp only [Res.ok.injEq] at h
      rw [← h, List.length_take]
      omega
    · simp at h
  · simp at h

theorem fetch_length {arrs : List Arrs} {r addr n : Nat} {bs : List Blk} (h : fetch arrs r addr n = .ok bs) : bs.length = n := by
  unfold fetch at h
  split at h
  · exact blocks_length h
  · simp at h

theorem blocks_iff {m : Arrs} {addr : Nat} {bs : List Blk} :
    m.blocks addr bs.length = .ok bs ↔ ∃ l, m addr = some l ∧ bs <+: l := by
  unfold Arrs.blocks
  constructor
  · intro h
    split at h
    · rename_i l hl
      split at h
      · simp only [Res.ok.injEq] at h
        exact ⟨l, hl, List.prefix_iff_eq_take.mpr h.symm⟩
      · simp at h
    · simp at h
  · rintro ⟨l, h1, h2⟩
    rw [h1]
    show (if bs.length ≤ l.length then Res.ok (l.take bs.length) else .ub) = _
    rw [if_pos h2.length_le, ← List.prefix_iff_eq_take.mp h2]

theorem push_alike {s : NState} {q : QState} {A : List (Nat × Nat × List Blk)} {G : List (List (RReq × Option Nat))} (h : Alike s q A G)
    (r did xbuf : Nat) (bs : List Blk) (o : Option Nat) (src : Src)
    (hsrc : src = srcOf bs o) :
    (∃ s' q' G', s.push r did src xbuf = .ok s' ∧ vstep (.read r did bs xbuf) q = .ok q' ∧ s'.arrs = s.arrs ∧
      Alike s' q' (A ++ ptrOf r bs o) G') ∨
    (s.push r did src xbuf = .ub ∧ vstep (.read r did bs xbuf) q = .ub) := by
  unfold NState.push vstep
  dsimp only
  rw [h.st]
  cases hd : q.st.dsets[did]? with
  | none => exact Or.inr ⟨rfl, rfl⟩
  | some od =>
    cases od with
    | none => exact Or.inr ⟨rfl, rfl⟩
    | some d =>
      dsimp only
      have hl : s.rq.length = q.rq.length := by rw [h.rq, h.vq]; simp
      by_cases hr : r < q.rq.length
      · rw [if_pos (by omega), if_pos hr]
        refine Or.inl ⟨_, _, G.modify r (· ++ [(⟨did, d, bs, xbuf⟩, o)]), rfl, rfl, rfl, ⟨?_, ?_, ?_, h.mem, ?_⟩⟩
        · dsimp only
          rw [h.rq]
          apply List.ext_getElem?
          intro i
          simp only [List.getElem?_modify, List.getElem?_map]
          cases G[i]? with
          | none => simp
          | some l =>
            by_cases hi : r = i
            · subst hi
              simp [toN, hsrc]
            · simp [hi]
        · unfold QState.read
          dsimp only
          rw [h.vq]
          apply List.ext_getElem?
          intro i
          simp only [List.getElem?_modify, List.getElem?_map]
          cases G[i]? with
          | none => simp
          | some l =>
            by_cases hi : r = i
            · subst hi
              simp
            · simp [hi]
        · rfl
        · intro r' a' bs'
          rw [List.mem_append, ← h.ptr]
          have hg : r < G.length := by rw [h.vq] at hr; simpa using hr
          constructor
          · rintro ⟨l, h1, x, h2, h3⟩
            rw [List.getElem?_modify] at h1
            cases hG : G[r']? with
            | none => simp [hG] at h1
            | some l0 =>
              by_cases hi : r = r'
              · simp only [hG, Option.map_eq_map, Option.map_some, if_pos hi, Option.some.injEq] at h1
                rw [← h1, List.mem_append] at h2
                rcases h2 with h2 | h2
                · exact Or.inl ⟨l0, rfl, x, h2, h3⟩
                · right
                  simp only [List.mem_singleton, Prod.mk.injEq] at h2
                  rw [← h2.2, ← h3, h2.1, hi]
                  simp [ptrOf]
              · simp only [hG, Option.map_eq_map, Option.map_some, if_neg hi, Option.some.injEq] at h1
                subst h1
                exact Or.inl ⟨l0, rfl, x, h2, h3⟩
          · rintro (⟨l, h1, x, h2, h3⟩ | h1)
            · by_cases hi : r = r'
              · exact ⟨l ++ [(⟨did, d, bs, xbuf⟩, o)], by simp [h1, hi], x, by simp [h2], h3⟩
              · exact ⟨l, by simp [h1, hi], x, h2, h3⟩
            · cases o with
              | none => simp [ptrOf] at h1
              | some a =>
                simp only [ptrOf, List.mem_singleton, Prod.mk.injEq] at h1
                obtain ⟨rfl, rfl, rfl⟩ := h1
                exact ⟨G[r'] ++ [(⟨did, d, bs', xbuf⟩, some a')], by simp [hg], ⟨did, d, bs', xbuf⟩, by simp, rfl⟩
      · rw [if_neg (by omega), if_neg hr]
        exact Or.inr ⟨rfl, rfl⟩

theorem setArr_length (r addr : Nat) (o : Option (List Blk)) (arrs : List Arrs) : (setArr r addr o arrs).length = arrs.length := by
  simp [setArr]

/-- The calls with pointers and the calls by value. -/
theorem run_alike : ∀ (ops : List AOp) (vs : List VOp) (s : NState) (q : QState) (A : List (Nat × Nat × List Blk))
    (G : List (List (RReq × Option Nat))), Alike s q A G → values s.arrs ops = .ok vs →
    (∃ s' q' G', s.run ops = .ok s' ∧ vrun vs q = .ok q' ∧ s'.arrs = arrsAfter s.arrs ops ∧ s'.arrs.length = s.arrs.length ∧
      Alike s' q' (A ++ asked s.arrs ops) G') ∨
    (s.run ops = .err ∧ vrun vs q = .err) ∨ (s.run ops = .ub ∧ vrun vs q = .ub) := by
  intro ops
  induction ops with
  | nil =>
    intro vs s q A G h hv
    simp only [values, Res.ok.injEq] at hv
    subst hv
    exact Or.inl ⟨s, q, G, rfl, rfl, rfl, rfl, by simpa [asked] using h⟩
  | cons op ops ih =>
    intro vs s q A G h hv
    -- a read is queued
    have push : ∀ (r did xbuf : Nat) (bs : List Blk) (o : Option Nat) (src : Src) (vs' : List VOp),
        src = srcOf bs o → values s.arrs ops = .ok vs' →
        (∃ s' q' G', (s.push r did src xbuf).bind (NState.run ops) = .ok s' ∧ (vstep (.read r did bs xbuf) q).bind (vrun vs') = .ok q' ∧
          s'.arrs = arrsAfter s.arrs ops ∧ s'.arrs.length = s.arrs.length ∧
          Alike s' q' (A ++ (ptrOf r bs o ++ asked s.arrs ops)) G') ∨
        ((s.push r did src xbuf).bind (NState.run ops) = .err ∧ (vstep (.read r did bs xbuf) q).bind (vrun vs') = .err) ∨
        ((s.push r did src xbuf).bind (NState.run ops) = .ub ∧ (vstep (.read r did bs xbuf) q).bind (vrun vs') = .ub) := by
      intro r did xbuf bs o src vs' hsrc hvs
      rcases push_alike h r did xbuf bs o src hsrc with ⟨s1, q1, G1, e1, e2, e3, e4⟩ | ⟨e1, e2⟩
      · rw [e1, e2]
        have := ih vs' s1 q1 _ G1 e4 (by rw [e3]; exact hvs)
        rw [e3, List.append_assoc] at this
        exact this
      · rw [e1, e2]
        exact Or.inr (Or.inr ⟨rfl, rfl⟩)
    -- a call that concerns the file only
    have file : ∀ (f : FState → Res FState) (vs' : List VOp), values s.arrs ops = .ok vs' →
        (∃ s' q' G', ((f s.st).bind fun st => .ok { s with st := st }).bind (NState.run ops) = .ok s' ∧
          (q.onFile f).bind (vrun vs') = .ok q' ∧ s'.arrs = arrsAfter s.arrs ops ∧ s'.arrs.length = s.arrs.length ∧
          Alike s' q' (A ++ asked s.arrs ops) G') ∨
        (((f s.st).bind fun st => .ok { s with st := st }).bind (NState.run ops) = .err ∧ (q.onFile f).bind (vrun vs') = .err) ∨
        (((f s.st).bind fun st => .ok { s with st := st }).bind (NState.run ops) = .ub ∧ (q.onFile f).bind (vrun vs') = .ub) := by
      intro f vs' hvs
      have e : q.onFile f = (f s.st).bind fun st => .ok { q with st := st } := by rw [h.st]; rfl
      rw [e]
      cases f s.st with
      | ok st => exact ih vs' { s with st := st } { q with st := st } A G ⟨h.rq, h.vq, rfl, h.mem, h.ptr⟩ hvs
      | err => exact Or.inr (Or.inl ⟨rfl, rfl⟩)
      | ub => exact Or.inr (Or.inr ⟨rfl, rfl⟩)
    cases op with
    | writeN r addr n did data =>
      simp only [values] at hv
      by_cases hn : n = 0
      · rw [if_pos hn] at hv
        have : s.run (.writeN r addr n did data :: ops) = s.run ops := by
          show (s.step _).bind _ = _
          unfold NState.step
          dsimp only
          rw [if_pos hn]
          rfl
        rw [this]
        exact ih vs s q A G h hv
      · rw [if_neg hn] at hv
        obtain ⟨bs, h1, h2⟩ := Res.bind_ok hv
        obtain ⟨vs', h3, h4⟩ := Res.bind_ok h2
        simp only [Res.ok.injEq] at h4
        subst h4
        have : s.run (.writeN r addr n did data :: ops) =
            (((FState.write r did bs data) s.st).bind fun st => .ok { s with st := st }).bind (NState.run ops) := by
          show (s.step _).bind _ = _
          unfold NState.step
          dsimp only
          rw [if_neg hn, h1]
          rfl
        rw [this]
        exact file (FState.write r did bs data) vs' h3
    | readN r addr n did xbuf =>
      simp only [values] at hv
      by_cases hn : n = 0
      · rw [if_pos hn] at hv
        have : s.run (.readN r addr n did xbuf :: ops) = s.run ops := by
          show (s.step _).bind _ = _
          unfold NState.step
          dsimp only
          rw [if_pos hn]
          rfl
        rw [this]
        have e : asked s.arrs (.readN r addr n did xbuf :: ops) = asked s.arrs ops := by
          simp only [asked, if_pos hn]
          split <;> rfl
        rw [e]
        exact ih vs s q A G h hv
      · rw [if_neg hn] at hv
        obtain ⟨bs, h1, h2⟩ := Res.bind_ok hv
        obtain ⟨vs', h3, h4⟩ := Res.bind_ok h2
        simp only [Res.ok.injEq] at h4
        subst h4
        have hlen := fetch_length h1
        have : s.run (.readN r addr n did xbuf :: ops) = (s.push r did (.app addr n) xbuf).bind (NState.run ops) := by
          show (s.step _).bind _ = _
          unfold NState.step
          dsimp only
          rw [if_neg hn, h1]
          rfl
        rw [this]
        have e : asked s.arrs (.readN r addr n did xbuf :: ops) = [(r, addr, bs)] ++ asked s.arrs ops := by
          simp only [asked, h1, if_neg hn]
        rw [e]
        exact push r did xbuf bs (some addr) (.app addr n) vs' (by rw [srcOf, hlen]) h3
    | read r did bs xbuf =>
      simp only [values] at hv
      by_cases hn : bs = []
      · rw [if_pos hn] at hv
        have : s.run (.read r did bs xbuf :: ops) = s.run ops := by
          show (s.step _).bind _ = _
          unfold NState.step
          dsimp only
          rw [if_pos hn]
          rfl
        rw [this]
        exact ih vs s q A G h hv
      · rw [if_neg hn] at hv
        obtain ⟨vs', h3, h4⟩ := Res.bind_ok hv
        simp only [Res.ok.injEq] at h4
        subst h4
        have : s.run (.read r did bs xbuf :: ops) = (s.push r did (.own bs) xbuf).bind (NState.run ops) := by
          show (s.step _).bind _ = _
          unfold NState.step
          dsimp only
          rw [if_neg hn]
        rw [this]
        exact push r did xbuf bs none (.own bs) vs' rfl h3
    | set r addr o =>
      have := ih vs { s with arrs := setArr r addr o s.arrs } q A G ⟨h.rq, h.vq, h.st, h.mem, h.ptr⟩ hv
      dsimp only at this
      rw [setArr_length] at this
      exact this
    | file f =>
      simp only [values] at hv
      obtain ⟨vs', h3, h4⟩ := Res.bind_ok hv
      simp only [Res.ok.injEq] at h4
      subst h4
      exact file f vs' h3

theorem resolveList_iff {m : Arrs} : ∀ (l : List (RReq × Option Nat)),
    resolveList m (l.map toN) = .ok (l.map (·.1)) ↔ ∀ x a, (x, some a) ∈ l → ∃ l', m a = some l' ∧ x.bs <+: l' := by
  intro l
  induction l with
  | nil => simp [resolveList]
  | cons p l ih =>
    obtain ⟨x, o⟩ := p
    have hx : ∀ bs, Res.ok (⟨x.did, x.d, bs, x.xbuf⟩ : RReq) = .ok x ↔ bs = x.bs := by
      intro bs
      constructor
      · intro h
        simp only [Res.ok.injEq] at h
        rw [← h]
      · rintro rfl
        rfl
    have key : (NReq.resolve m (toN (x, o)) = .ok x) ↔ ∀ a, o = some a → ∃ l', m a = some l' ∧ x.bs <+: l' := by
      cases o with
      | none => simp [toN, srcOf, NReq.resolve]
      | some a =>
        simp only [toN, srcOf, NReq.resolve, Option.some.injEq, forall_eq']
        rw [← blocks_iff]
        cases m.blocks a x.bs.length with
        | ok bs =>
          show Res.ok (⟨x.did, x.d, bs, x.xbuf⟩ : RReq) = .ok x ↔ Res.ok bs = .ok x.bs
          rw [hx, Res.ok.injEq]
        | err => simp [Res.bind]
        | ub => simp [Res.bind]
    constructor
    · intro h
      simp only [List.map_cons, resolveList] at h
      obtain ⟨x', h1, h2⟩ := Res.bind_ok h
      obtain ⟨l', h3, h4⟩ := Res.bind_ok h2
      simp only [Res.ok.injEq, List.cons.injEq] at h4
      obtain ⟨rfl, rfl⟩ := h4
      intro y a hy
      rcases List.mem_cons.mp hy with hy | hy
      · simp only [Prod.mk.injEq] at hy
        obtain ⟨rfl, rfl⟩ := hy
        exact key.mp h1 a rfl
      · exact ih.mp h3 y a hy
    · intro h
      simp only [List.map_cons, resolveList]
      rw [key.mpr (fun a ho => h x a (by rw [ho]; simp)), ih.mpr (fun y a hy => h y a (List.mem_cons_of_mem _ hy))]
      rfl

theorem resolveAll_iff : ∀ (G : List (List (RReq × Option Nat))) (ms : List Arrs), ms.length = G.length →
    (resolveAll ms (G.map (·.map toN)) = .ok (G.map (·.map (·.1))) ↔
      ∀ (r : Nat) (l : List (RReq × Option Nat)), G[r]? = some l → ∀ (x : RReq) (a : Nat), (x, some a) ∈ l → ∃ (m : Arrs) (l' : List Blk), ms[r]? = some m ∧ m a = some l' ∧ x.bs <+: l') := by
  intro G
  induction G with
  | nil => intro ms h; simp [resolveAll]
  | cons g G ih =>
    intro ms hl
    match ms, hl with
    | m :: ms, hl =>
    simp only [List.length_cons, Nat.add_right_cancel_iff] at hl
    constructor
    · intro h
      simp only [List.map_cons, resolveAll] at h
      obtain ⟨x', h1, h2⟩ := Res.bind_ok h
      obtain ⟨l', h3, h4⟩ := Res.bind_ok h2
      simp only [Res.ok.injEq, List.cons.injEq] at h4
      obtain ⟨rfl, rfl⟩ := h4
      intro r l hr x a hx
      cases r with
      | zero =>
        simp only [List.getElem?_cons_zero, Option.some.injEq] at hr
        subst hr
        obtain ⟨l', e1, e2⟩ := (resolveList_iff g).mp h1 x a hx
        exact ⟨m, l', rfl, e1, e2⟩
      | succ r => exact (ih ms hl).mp h3 r l (by simpa using hr) x a hx
    · intro h
      simp only [List.map_cons, resolveAll]
      rw [(resolveList_iff g).mpr (fun x a hx => by
          obtain ⟨m', l', e1, e2⟩ := h 0 g rfl x a hx
          simp only [List.getElem?_cons_zero, Option.some.injEq] at e1
          subst e1
          exact ⟨l', e2⟩),
        (ih ms hl).mpr (fun r l hr x a hx => h (r + 1) l (by simpa using hr) x a hx)]
      rfl

theorem alike_resolve {s : NState} {q : QState} {A : List (Nat × Nat × List Blk)} {G : List (List (RReq × Option Nat))} (h : Alike s q A G)
    (hl : s.arrs.length = s.rq.length) : resolveAll s.arrs s.rq = .ok q.rq ↔ ∀ p ∈ A, StillHolds s.arrs p := by
  rw [h.rq, h.vq, resolveAll_iff G s.arrs (by rw [hl, h.rq]; simp)]
  constructor
  · rintro hh ⟨r, a, bs⟩ hp
    obtain ⟨l, h1, x, h2, h3⟩ := (h.ptr r a bs).mpr hp
    subst h3
    exact hh r l h1 x a h2
  · intro hh r l hr x a hx
    exact hh (r, a, x.bs) ((h.ptr r a x.bs).mp ⟨l, hr, x, hx, rfl⟩)

end Verif
