import Verif.Model.Stage
import Verif.Lemmas.Recordable
import Verif.Props.FileEx

/-
C26 (buffered writes) and C27 (failed writes).
-/

namespace Verif.Props

open Spec (AW SameSel Recordable)

/-! ### C26 -/

/-- **C26 (partial).** The data of a write are fixed when the call returns, whatever happens to memory afterwards, whenever
the write is not buffered, or the types differ, or the memory selection is not the whole buffer, or the dataset has filters.
Missing: buffered writes of a whole buffer without conversion and filters, see `C26_buffered_violated`. -/
theorem C26_isolated_partial (z : Zlib) (conv : List Byte → List Byte) (a : StageArgs) (mem : Mem)
    (ubuf n mes des : Nat) (sel : List Nat) (db : DBuf) (e : stage z conv a mem ubuf n mes des sel = .ok db)
    (h : a.buffered = false ∨ a.sameType = false ∨ a.memAll = false ∨ a.filters ≠ []) (later : Mem) :
    db.flushed later = db.flushed mem := by
  unfold stage at e
  by_cases hf : a.filters = []
  · have hr : (a.buffered && a.sameType && a.memAll) = false := by
      rcases h with h | h | h | h
      · simp [h]
      · simp [h]
      · simp [h]
      · exact absurd hf h
    simp only [hf, if_true] at e
    rw [hr] at e
    injection e with e
    rw [← e]
    rfl
  · simp only [hf, if_false] at e
    generalize filter z a.filters _ = y at e
    cases y with
    | err => cases e
    | ub => cases e
    | ok y =>
      injection e with e
      rw [← e]
      rfl

/-- **C26 is violated.** A buffered write of a whole buffer without conversion and filters queues the user's memory itself:
changing any byte of the buffer before the flush changes the data written. -/
theorem C26_buffered_violated (z : Zlib) (conv : List Byte → List Byte) (mem : Mem) (ubuf n des : Nat) (sel : List Nat)
    (i : Nat) (hi : i < n * des) (v : Byte) (hv : v ≠ mem (ubuf + i)) :
    ∃ db, stage z conv ⟨true, true, true, []⟩ mem ubuf n des des sel = .ok db ∧
      db.flushed (upd mem (ubuf + i) v) ≠ db.flushed mem := by
  refine ⟨_, rfl, ?_⟩
  intro h
  have h := congrArg (fun l => l[i]?) h
  simp only [DBuf.flushed, Bool.and_self, if_true, fileBytes] at h
  rw [List.getElem?_map, List.getElem?_map, List.getElem?_range hi] at h
  simp [upd] at h
  exact hv h

/-- Without changes to memory the data written do not depend on the buffered setting. -/
theorem C26_same_data (z : Zlib) (conv : List Byte → List Byte) (a : StageArgs) (mem : Mem)
    (ubuf n mes des : Nat) (sel : List Nat) (hs : a.sameType = true → mes = des) :
    (∀ db, stage z conv a mem ubuf n mes des sel = .ok db →
      ∃ db', stage z conv { a with buffered := !a.buffered } mem ubuf n mes des sel = .ok db' ∧
        db'.flushed mem = db.flushed mem) := by
  have key : ∀ b, ∃ x : DBuf, (if (b && a.sameType && a.memAll) = true then DBuf.user ubuf (n * des)
      else .own (if a.sameType = true then packed a mem ubuf n mes sel else conv (packed a mem ubuf n mes sel))) = x ∧
      x.flushed mem = (if a.sameType = true then packed a mem ubuf n mes sel else conv (packed a mem ubuf n mes sel)) := by
    intro b
    refine ⟨_, rfl, ?_⟩
    by_cases hr : (b && a.sameType && a.memAll) = true
    · rw [if_pos hr]
      simp at hr
      rw [if_pos hr.1.2, packed, if_pos hr.2, hs hr.1.2]
      rfl
    · rw [if_neg hr]
      rfl
  have main : ∀ b, stage z conv { a with buffered := b } mem ubuf n mes des sel =
      (if a.filters = [] then .ok (if (b && a.sameType && a.memAll) = true then DBuf.user ubuf (n * des)
        else .own (if a.sameType = true then packed a mem ubuf n mes sel else conv (packed a mem ubuf n mes sel)))
      else (filter z a.filters (if a.sameType = true then packed a mem ubuf n mes sel
        else conv (packed a mem ubuf n mes sel)) >>= fun y => .ok (.own y))) := by
    intro b
    obtain ⟨x, hx, hxf⟩ := key b
    rw [hx]
    have e : stage z conv { a with buffered := b } mem ubuf n mes des sel =
        if a.filters = [] then .ok x else (filter z a.filters (x.flushed mem) >>= fun y => .ok (.own y)) := by
      unfold stage
      rw [← hx]
      rfl
    rw [e, hxf]
  intro db e
  have ea : a = { a with buffered := a.buffered } := rfl
  rw [ea, main a.buffered] at e
  by_cases hf : a.filters = []
  · rw [if_pos hf] at e
    injection e with e
    refine ⟨_, by rw [main, if_pos hf], ?_⟩
    obtain ⟨x, hx, hxf⟩ := key a.buffered
    obtain ⟨y, hy, hyf⟩ := key (!a.buffered)
    rw [hy, ← e, hx, hxf, hyf]
  · rw [if_neg hf] at e
    exact ⟨db, by rw [main, if_neg hf, e], rfl⟩

/-! ### C27 -/

theorem wreqEq_apart {cfg : Cfg} {w f : AW} {o o' : Int} (hw : Recordable cfg w o) (hf : Recordable cfg f o')
    (hm : NoMixed cfg w f) (hs : ¬ SameSel f w) (mo mo' : Nat) :
    wreqEq (AW.plain cfg w mo 0) (AW.plain cfg f mo' 0) = .ok false := by
  obtain ⟨b, h1, h2⟩ := wreqEq_plain hm mo mo'
  cases b with
  | false => exact h1
  | true =>
    obtain ⟨h3, h4⟩ := h2 rfl
    exact absurd (sameSel_of_shares hf.awf hw.awf ⟨h4, h3⟩) hs

/-- The second list is the first one without some of the keys of `F`. -/
inductive Without (F : WReq → Prop) : List WReq → List WReq → Prop
  | nil : Without F [] []
  | both (k : WReq) {a b : List WReq} : Without F a b → Without F (k :: a) (k :: b)
  | extra (k : WReq) {a b : List WReq} : F k → Without F a b → Without F (k :: a) b

theorem Without.snoc {F : WReq → Prop} {a b : List WReq} (h : Without F a b) (k : WReq) :
    Without F (a ++ [k]) (b ++ [k]) := by
  induction h with
  | nil => exact .both k .nil
  | both k' _ ih => exact .both k' ih
  | extra k' hk _ ih => exact .extra k' hk ih

theorem Without.snocExtra {F : WReq → Prop} {a b : List WReq} (h : Without F a b) {k : WReq} (hk : F k) :
    Without F (a ++ [k]) b := by
  induction h with
  | nil => exact .extra k hk .nil
  | both k' _ ih => exact .both k' ih
  | extra k' hk' _ ih => exact .extra k' hk' ih

theorem Without.mono {F G : WReq → Prop} (hfg : ∀ k, F k → G k) {a b : List WReq} (h : Without F a b) : Without G a b := by
  induction h with
  | nil => exact .nil
  | both k _ ih => exact .both k ih
  | extra k hk _ ih => exact .extra k (hfg k hk) ih

theorem hashFind_without {F : WReq → Prop} {r : WReq} (hF : ∀ k, F k → wreqEq r k = .ok false) {a b : List WReq}
    (h : Without F a b) : hashFind r a = hashFind r b := by
  induction h with
  | nil => rfl
  | both k _ ih => rw [hashFind, hashFind, ih]
  | extra k hk _ ih =>
    rw [hashFind, hF k hk]
    simp only [Res.ok_bind, Bool.false_eq_true, if_false, ih, ite_self]

/-- Keys of the failed calls of `cs`. -/
def FailKey (cfg : Cfg) (cs : List (AW × Bool)) (k : WReq) : Prop :=
  ∃ c ∈ cs, c.2 = false ∧ ∃ mo, k = AW.plain cfg c.1 mo 0

/-- Keys of calls of `cs`. -/
def CallKey (cfg : Cfg) (cs : List (AW × Bool)) (k : WReq) : Prop := ∃ c ∈ cs, ∃ mo, k = AW.plain cfg c.1 mo 0

structure FailInv (cfg : Cfg) (done : List (AW × Bool)) (a b : Rank) : Prop where
  wreqs : a.wreqs = b.wreqs
  nflushed : a.nflushed = b.nflushed
  mdsize : a.mdsize = b.mdsize
  hash : Without (FailKey cfg done) a.hash b.hash
  keys : ∀ k ∈ a.hash, CallKey cfg done k

/-- What later calls require of the calls before them. -/
structure CallsOK (cfg : Cfg) (cs : List (AW × Bool)) : Prop where
  rcd : ∀ c ∈ cs, Recordable cfg c.1 0
  mix : cfg.share = true → cs.Pairwise (fun x y => NoMixed cfg y.1 x.1)
  apart : cfg.share = true → cs.Pairwise (fun x y => x.2 = false → ¬ SameSel x.1 y.1)

theorem dedup_share_off {cfg : Cfg} (h : cfg.share = false) (r : WReq) (st : Rank) : dedup cfg r st = .ok (r, st.hash) := by
  unfold dedup
  rw [h]
  rfl

theorem runCalls_inv {cfg : Cfg} (done cs : List (AW × Bool)) (h : CallsOK cfg (done ++ cs)) {a b : Rank}
    (hi : FailInv cfg done a b) :
    ∃ a' b', runCalls cfg cs a = .ok a' ∧ runCalls cfg (cs.filter (·.2)) b = .ok b' ∧ FailInv cfg (done ++ cs) a' b' := by
  induction cs generalizing done a b with
  | nil => exact ⟨a, b, rfl, rfl, by simpa using hi⟩
  | cons c cs ih =>
    have hc : Recordable cfg c.1 0 := h.rcd c (by simp)
    have hne : c.1.bs ≠ [] := hc.sel.ne
    have e : done ++ c :: cs = (done ++ [c]) ++ cs := by simp
    rw [e] at h ⊢
    have hmk : ∀ st : Rank, mkWReq cfg c.1.d c.1.did c.1.bs st.mdsize c.1.data = AW.plain cfg c.1 st.mdsize 0 := fun _ => rfl
    -- the outcome of the deduplication in both runs
    have hd : ∃ x, dedup cfg (AW.plain cfg c.1 a.mdsize 0) a = .ok x ∧
        (x.2 = a.hash ∨ x.2 = a.hash ++ [AW.plain cfg c.1 a.mdsize 0]) ∧
        ∃ y, dedup cfg (AW.plain cfg c.1 b.mdsize 0) b = .ok y ∧ y.1 = x.1 ∧
          Without (FailKey cfg done) x.2 y.2 := by
      cases hsh : cfg.share with
      | false =>
        refine ⟨_, dedup_share_off hsh _ _, Or.inl rfl, _, dedup_share_off hsh _ _, ?_, hi.hash⟩
        show AW.plain cfg c.1 b.mdsize 0 = AW.plain cfg c.1 a.mdsize 0
        rw [hi.mdsize]
      | true =>
        have hmx : ∀ x ∈ done, NoMixed cfg c.1 x.1 := by
          intro x hx
          have := h.mix hsh
          rw [List.append_assoc, List.pairwise_append] at this
          exact this.2.2 x hx c (by simp)
        have hap : ∀ x ∈ done, x.2 = false → ¬ SameSel x.1 c.1 := by
          intro x hx
          have := h.apart hsh
          rw [List.append_assoc, List.pairwise_append] at this
          exact this.2.2 x hx c (by simp)
        have hfind : hashFind (AW.plain cfg c.1 a.mdsize 0) a.hash = hashFind (AW.plain cfg c.1 a.mdsize 0) b.hash := by
          refine hashFind_without ?_ hi.hash
          rintro k ⟨x, hx, hx2, mo, rfl⟩
          exact wreqEq_apart hc (h.rcd x (by simp [hx])) (hmx x hx) (hap x hx hx2) _ _
        have hok : ∃ o, hashFind (AW.plain cfg c.1 a.mdsize 0) a.hash = .ok o := by
          rcases hashFind_spec (cfg := cfg) (w := c.1) (mo := a.mdsize) a.hash (fun k hk => by
            obtain ⟨x, hx, mo, rfl⟩ := hi.keys k hk
            exact ⟨x.1, mo, rfl, hmx x hx⟩) with h1 | ⟨k, _, h1, _⟩
          · exact ⟨_, h1⟩
          · exact ⟨_, h1⟩
        obtain ⟨o, ho⟩ := hok
        have hob := ho
        rw [hfind] at hob
        rw [← hi.mdsize]
        unfold dedup
        by_cases hl : (cfg.share && decide (8 < (AW.plain cfg c.1 a.mdsize 0).selBuf.length)) = true
        · rw [if_pos hl, if_pos hl, ho, hob]
          cases o with
          | none => exact ⟨_, rfl, Or.inr rfl, _, rfl, rfl, hi.hash.snoc _⟩
          | some k => exact ⟨_, rfl, Or.inl rfl, _, rfl, by show mkRef _ _ b.mdsize = mkRef _ _ a.mdsize; rw [hi.mdsize], hi.hash⟩
        · rw [if_neg hl, if_neg hl]
          exact ⟨_, rfl, Or.inl rfl, _, rfl, rfl, hi.hash⟩
    obtain ⟨x, hx, hxs, y, hy, hy1, hy2⟩ := hd
    have hkeys : ∀ k ∈ x.2, CallKey cfg (done ++ [c]) k := by
      intro k hk
      have old : k ∈ a.hash → CallKey cfg (done ++ [c]) k := fun hk => by
        obtain ⟨p, hp, q⟩ := hi.keys k hk
        exact ⟨p, by simp [hp], q⟩
      rcases hxs with hxs | hxs <;> rw [hxs] at hk
      · exact old hk
      · rcases List.mem_append.mp hk with hk | hk
        · exact old hk
        · exact ⟨c, by simp, _, List.mem_singleton.mp hk⟩
    have hmono : ∀ k, FailKey cfg done k → FailKey cfg (done ++ [c]) k := fun k ⟨p, hp, q⟩ => ⟨p, by simp [hp], q⟩
    rcases hb : c.2 with _ | _
    · -- a failing call
      have ea : failRank cfg c.1 a = .ok { a with hash := x.2 } := by
        rw [failRank, if_neg hne, hmk, hx]; rfl
      have hinv : FailInv cfg (done ++ [c]) { a with hash := x.2 } b := by
        refine ⟨hi.wreqs, hi.nflushed, hi.mdsize, ?_, hkeys⟩
        show Without _ x.2 b.hash
        rcases hxs with hxs | hxs <;> rw [hxs]
        · exact hi.hash.mono hmono
        · exact (hi.hash.mono hmono).snocExtra ⟨c, by simp, hb, _, rfl⟩
      obtain ⟨a', b', h1, h2, h3⟩ := ih (done ++ [c]) h hinv
      refine ⟨a', b', ?_, ?_, h3⟩
      · rw [runCalls, hb]
        simp only [Bool.false_eq_true, if_false]
        rw [ea, Res.ok_bind, h1]
      · rw [List.filter_cons_of_neg (by simp [hb]), h2]
    · have ea : writeRank cfg c.1.d c.1.did c.1.bs c.1.data a =
          .ok { a with wreqs := a.wreqs ++ [x.1], mdsize := a.mdsize + x.1.metaSize, hash := x.2 } := by
        rw [writeRank, if_neg hne, hmk, hx]; rfl
      have eb : writeRank cfg c.1.d c.1.did c.1.bs c.1.data b =
          .ok { b with wreqs := b.wreqs ++ [y.1], mdsize := b.mdsize + y.1.metaSize, hash := y.2 } := by
        rw [writeRank, if_neg hne, hmk, hy]; rfl
      have hinv : FailInv cfg (done ++ [c])
          { a with wreqs := a.wreqs ++ [x.1], mdsize := a.mdsize + x.1.metaSize, hash := x.2 }
          { b with wreqs := b.wreqs ++ [y.1], mdsize := b.mdsize + y.1.metaSize, hash := y.2 } := by
        refine ⟨?_, hi.nflushed, ?_, hy2.mono hmono, hkeys⟩
        · show a.wreqs ++ [x.1] = b.wreqs ++ [y.1]
          rw [hi.wreqs, hy1]
        · show a.mdsize + x.1.metaSize = b.mdsize + y.1.metaSize
          rw [hi.mdsize, hy1]
      obtain ⟨a', b', h1, h2, h3⟩ := ih (done ++ [c]) h hinv
      refine ⟨a', b', ?_, ?_, h3⟩
      · rw [runCalls, hb]
        simp only [if_true]
        rw [ea, Res.ok_bind, h1]
      · rw [List.filter_cons_of_pos hb, runCalls, hb]
        simp only [if_true]
        rw [eb, Res.ok_bind, h2]

/-- **C27 (partial).** For every sequence of calls of a process, some of which fail, the queue and the metadata are those of
the successful calls alone, provided (with metadata sharing on) no call repeats the selection of an earlier failed call.
Missing: that case, see `C27_failed_violated`. -/
theorem C27_failed_partial (cfg : Cfg) (cs : List (AW × Bool)) (hr : ∀ c ∈ cs, Recordable cfg c.1 0)
    (hm : cfg.share = true → Spec.NoMix cfg (cs.map Prod.fst))
    (ha : cfg.share = true → cs.Pairwise (fun x y => x.2 = false → ¬ SameSel x.1 y.1)) :
    ∃ st st', runCalls cfg cs Rank.init = .ok st ∧ runCalls cfg (cs.filter (·.2)) Rank.init = .ok st' ∧
      st.wreqs = st'.wreqs ∧ st.metaBytes = st'.metaBytes ∧ st.mdsize = st'.mdsize := by
  have hok : CallsOK cfg ([] ++ cs) := by
    refine ⟨hr, fun hsh => ?_, ha⟩
    cases he : cfg.selEncode with
    | false =>
      rw [List.pairwise_iff_forall_sublist]
      intro x y hxy
      have hx := hxy.subset (List.mem_cons_self ..)
      have hy := hxy.subset (List.mem_cons_of_mem _ (List.mem_singleton.mpr rfl))
      exact noMixed_of (hr y hy).sel (hr x hx).sel (fun h => by rw [he] at h; cases h)
    | true =>
      have := hm hsh he
      rw [List.pairwise_map] at this
      refine List.Pairwise.imp_of_mem ?_ this
      intro x y hx hy h
      refine noMixed_of (hr y hy).sel (hr x hx).sel (fun _ h1 h2 => ?_)
      have := h h1 h2
      rw [← recOf_isSome_iff (hr y hy).sel, ← recOf_isSome_iff (hr x hx).sel] at this
      rw [Bool.eq_iff_iff]
      exact this
  obtain ⟨a, b, h1, h2, h3⟩ := runCalls_inv [] cs hok (a := Rank.init) (b := Rank.init)
    ⟨rfl, rfl, rfl, .nil, fun k hk => by cases hk⟩
  exact ⟨a, b, h1, h2, h3.wreqs, by unfold Rank.metaBytes; rw [h3.wreqs], h3.mdsize⟩

/-! ### Concrete cases -/

def fwD : DInfo := ⟨[8], [some 8], 1⟩

def fwW : AW := { did := 0, d := fwD, bs := [⟨[2], [2]⟩], data := [1, 2] }

def fwV : AW := { did := 0, d := fwD, bs := [⟨[5], [3]⟩], data := [3, 4, 5] }

theorem fw_rec {w : AW} (h : w = fwW ∨ w = fwV) : Recordable ⟨true, true⟩ w 0 := by
  rcases h with rfl | rfl
  · refine ⟨⟨by decide, by decide, by intro b hb; simp [fwW] at hb; subst hb; exact ⟨rfl, rfl, by decide, by decide⟩⟩, ?_, ?_⟩
    · exact ⟨by decide, by decide, by decide, by decide, by decide⟩
    · intro _ h; simp [fwW] at h
  · refine ⟨⟨by decide, by decide, by intro b hb; simp [fwV] at hb; subst hb; exact ⟨rfl, rfl, by decide, by decide⟩⟩, ?_, ?_⟩
    · exact ⟨by decide, by decide, by decide, by decide, by decide⟩
    · intro _ h; simp [fwV] at h

/-- **C27 is violated by the default configuration.** A write of two elements fails (for example because the buffer limit is
reached) and is then repeated successfully: the second call is recorded as a reference to itself.  Reading the metadata is
undefined with one index and gives an entry without blocks with the other; without the failed call both give the blocks
written. -/
theorem C27_failed_violated :
    (∃ st, runCalls ⟨true, true⟩ [(fwW, false), (fwW, true)] Rank.init = .ok st ∧
      parseL [some fwD] true st.metaBytes = .ub ∧
      ∃ e, parseC [some fwD] true st.metaBytes = .ok [e] ∧ Spec.compactSels fwD e = .ub) ∧
    (∃ st, runCalls ⟨true, true⟩ [(fwW, true)] Rank.init = .ok st ∧
      (∃ e, parseL [some fwD] true st.metaBytes = .ok [e] ∧ e.sels = Spec.sels 1 fwW.bs) ∧
      ∃ e, parseC [some fwD] true st.metaBytes = .ok [e] ∧ Spec.compactSels fwD e = .ok (Spec.sels 1 fwW.bs)) := by
  refine ⟨?_, ?_⟩
  · have h : okWith (fun st => decide (parseL [some fwD] true st.metaBytes = .ub) &&
        decide (parseC [some fwD] true st.metaBytes = .ok [⟨0, -1, none, 0, 2, 0⟩]))
        (runCalls ⟨true, true⟩ [(fwW, false), (fwW, true)] Rank.init) = true := by decide +kernel
    obtain ⟨st, e, h⟩ := okWith_iff h
    simp only [Bool.and_eq_true, decide_eq_true_eq] at h
    exact ⟨st, e, h.1, _, h.2, by decide⟩
  · have h : okWith (fun st => okWith (fun es => decide (es.map (·.sels) = [Spec.sels 1 fwW.bs]))
          (parseL [some fwD] true st.metaBytes) &&
        decide (parseC [some fwD] true st.metaBytes = .ok [⟨0, -1, some (1, [2, 2]), 0, 2, 2⟩]))
        (runCalls ⟨true, true⟩ [(fwW, true)] Rank.init) = true := by decide +kernel
    obtain ⟨st, e, h⟩ := okWith_iff h
    simp only [Bool.and_eq_true, decide_eq_true_eq] at h
    obtain ⟨es, h1, h2⟩ := okWith_iff h.1
    simp only [decide_eq_true_eq] at h2
    have : ∃ e0, es = [e0] ∧ e0.sels = Spec.sels 1 fwW.bs := by
      cases es with
      | nil => cases h2
      | cons e0 l =>
        cases l with
        | nil => simp at h2; exact ⟨e0, rfl, h2⟩
        | cons e1 l => simp at h2
    obtain ⟨e0, h3, h4⟩ := this
    exact ⟨st, e, ⟨e0, by rw [h1, h3], h4⟩, _, h.2, by decide⟩

/-- The hypotheses of `C27_failed_partial` are met by a failing call followed by calls to other places. -/
example : ∃ st st', runCalls ⟨true, true⟩ [(fwW, false), (fwV, true), (fwV, true)] Rank.init = .ok st ∧
    runCalls ⟨true, true⟩ [(fwV, true), (fwV, true)] Rank.init = .ok st' ∧
    st.wreqs = st'.wreqs ∧ st.metaBytes = st'.metaBytes ∧ st.mdsize = st'.mdsize := by
  refine C27_failed_partial ⟨true, true⟩ [(fwW, false), (fwV, true), (fwV, true)] ?_ ?_ ?_
  · intro c hc
    simp at hc
    rcases hc with rfl | rfl
    · exact fw_rec (Or.inl rfl)
    · exact fw_rec (Or.inr rfl)
  · intro _ _
    simp [fwW, fwV]
  · intro _
    simp [Spec.SameSel, Spec.Confined, fwW, fwV, fwD]

/-- A buffered write of four bytes of memory. -/
example : ∃ db, stage ⟨id, id⟩ id ⟨true, true, true, []⟩ (fun _ => 7) 100 4 1 1 [] = .ok db ∧
    db.flushed (upd (fun _ => 7) 102 9) = [7, 7, 9, 7] := ⟨_, rfl, by decide⟩

example : ∃ db, stage ⟨id, id⟩ id ⟨false, true, true, []⟩ (fun _ => 7) 100 4 1 1 [] = .ok db ∧
    db.flushed (upd (fun _ => 7) 102 9) = [7, 7, 7, 7] := ⟨_, rfl, by decide⟩

end Verif.Props
