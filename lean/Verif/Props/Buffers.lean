import Verif.Spec.Buffers

/-
C22 (buffer budget) and C48 (pool).
-/

namespace Verif.Props
open Spec (liveTotal MallocOK BufOK Apart PoolRun)

/-! ### C22 -/

/-- Live buffers have different addresses and `bused` is their total size, plus what the memory contained at first. -/
structure BudgetInv (g : Nat) (st : Budget) : Prop where
  nodup : (st.live.map Prod.fst).Nodup
  small : liveTotal st.live < 2 ^ 63
  used : st.bused = (g + liveTotal st.live) % sizeMod

theorem liveTotal_erase {l : List (Nat × Nat)} {b : Nat × Nat} (h : b ∈ l) : liveTotal (l.erase b) + b.2 = liveTotal l := by
  induction l with
  | nil => simp at h
  | cons c l ih =>
    by_cases hc : c = b
    · subst hc
      rw [List.erase_cons_head]
      simp only [liveTotal, List.map_cons, List.sum_cons]
      omega
    · have hb : b ∈ l := by
        rcases List.mem_cons.mp h with h | h
        · exact absurd h.symm hc
        · exact h
      rw [List.erase_cons_tail (by simpa using hc)]
      have := ih hb
      simp only [liveTotal, List.map_cons, List.sum_cons] at this ⊢
      omega

theorem find_live {l : List (Nat × Nat)} {a n : Nat} (h : (a, n) ∈ l) (hd : (l.map Prod.fst).Nodup) :
    l.find? (fun b => b.1 == a) = some (a, n) := by
  induction l with
  | nil => simp at h
  | cons b l ih =>
    rw [List.find?_cons]
    simp only [List.map_cons, List.nodup_cons, List.mem_map, not_exists, not_and] at hd
    rcases List.mem_cons.mp h with rfl | h
    · simp
    · have : b.1 ≠ a := fun e => hd.1 (a, n) h e.symm
      simp only [beq_eq_false_iff_ne.mpr this]
      exact ih h hd.2

theorem budget_alloc {g : Nat} {st : Budget} (hi : BudgetInv g st) {size : Nat} {p : Option Nat}
    (hm : ∀ a ∈ p, MallocOK st.live size a) : BudgetInv g (balloc st size p).2 := by
  unfold balloc
  split
  · exact hi
  · cases p with
    | none => exact hi
    | some a =>
      simp only [Option.elim_some]
      split
      · exact hi
      · have := hm a rfl
        refine ⟨?_, ?_, ?_⟩
        · simp only [List.map_cons, List.nodup_cons]
          refine ⟨?_, hi.nodup⟩
          intro hin
          obtain ⟨b, hb, e⟩ := List.mem_map.mp hin
          exact this.1 b hb e
        · have := this.2
          simp only [liveTotal, List.map_cons, List.sum_cons] at this ⊢
          omega
        · simp only [hi.used, liveTotal, List.map_cons, List.sum_cons, Nat.mod_add_mod]
          congr 1
          omega

theorem budget_free {g : Nat} {st : Budget} (hi : BudgetInv g st) {p : Option Nat}
    (hp : ∀ a ∈ p, ∃ n, (a, n) ∈ st.live) : BudgetInv g (bfree st p).2 := by
  unfold bfree
  cases p with
  | none => exact hi
  | some a =>
    obtain ⟨n, hn⟩ := hp a rfl
    simp only [Option.elim_some, find_live hn hi.nodup]
    have ht := liveTotal_erase hn
    have hs := hi.small
    refine ⟨?_, ?_, ?_⟩
    · exact hi.nodup.sublist ((List.erase_sublist).map _)
    · simp only at ht ⊢; omega
    · simp only at ht ⊢
      have hn' : n % sizeMod = n := Nat.mod_eq_of_lt (by simp only [sizeMod]; omega)
      rw [hi.used, hn', ← ht, Nat.mod_add_mod]
      have : g + (liveTotal (st.live.erase (a, n)) + n) + (sizeMod - n) =
          g + liveTotal (st.live.erase (a, n)) + sizeMod := by
        have : n ≤ sizeMod := by simp only [sizeMod]; omega
        omega
      rw [this, Nat.add_mod_right]

theorem budget_run {g : Nat} : ∀ {cs : List BufCall} {st : Budget}, BudgetInv g st → BufOK st cs →
    BudgetInv g (bufRun st cs)
  | [], _, hi, _ => hi
  | .alloc size p :: _, st, hi, h => budget_run (st := (balloc st size p).2) (budget_alloc hi h.2.1) h.2.2
  | .free p :: _, st, hi, h => budget_run (st := (bfree st p).2) (budget_free hi h.1) h.2

theorem limit_run : ∀ {cs : List BufCall} {st : Budget}, BudgetInv 0 st → BufOK st cs → 0 ≤ st.bsize → st.bsize < 2 ^ 63 →
    liveTotal st.live ≤ st.bsize.toNat →
    (bufRun st cs).bsize = st.bsize ∧ liveTotal (bufRun st cs).live ≤ st.bsize.toNat
  | [], _, _, _, _, _, h => ⟨rfl, h⟩
  | .alloc size p :: cs, st, hi, hok, h0, h63, hl => by
    have hb : (balloc st size p).2.bsize = st.bsize ∧ liveTotal (balloc st size p).2.live ≤ st.bsize.toNat := by
      unfold balloc
      split
      · exact ⟨rfl, hl⟩
      · rename_i hc
        cases p with
        | none => exact ⟨rfl, hl⟩
        | some a =>
          simp only [Option.elim_some]
          split
          · exact ⟨rfl, hl⟩
          · refine ⟨rfl, ?_⟩
            have hm := (hok.2.1 a rfl).2
            have hs := hok.1
            have hu := hi.used
            simp only [Nat.zero_add] at hu
            have hlt : liveTotal st.live < sizeMod := by have := hi.small; simp only [sizeMod]; omega
            rw [Nat.mod_eq_of_lt hlt] at hu
            have hsum : (st.bused + size) % sizeMod = st.bused + size :=
              Nat.mod_eq_of_lt (by simp only [sizeMod]; omega)
            have hbs : (st.bsize % (sizeMod : Int)).toNat = st.bsize.toNat := by
              rw [Int.emod_eq_of_lt h0 (by simp only [sizeMod]; omega)]
            rw [hsum, hbs] at hc
            have hne : st.bsize ≠ unlimited := by simp only [unlimited]; omega
            have : st.bused + size ≤ st.bsize.toNat := by
              refine Decidable.byContradiction (fun hcon => hc ⟨hne, by omega⟩)
            simp only [liveTotal, List.map_cons, List.sum_cons] at hu ⊢
            omega
    have := limit_run (cs := cs) (st := (balloc st size p).2) (budget_alloc hi hok.2.1) hok.2.2
      (by rw [hb.1]; exact h0) (by rw [hb.1]; exact h63) (by rw [hb.1]; exact hb.2)
    rw [hb.1] at this
    exact this
  | .free p :: cs, st, hi, hok, h0, h63, hl => by
    have hb : (bfree st p).2.bsize = st.bsize ∧ liveTotal (bfree st p).2.live ≤ st.bsize.toNat := by
      unfold bfree
      cases p with
      | none => exact ⟨rfl, hl⟩
      | some a =>
        obtain ⟨n, hn⟩ := hok.1 a rfl
        simp only [Option.elim_some, find_live hn hi.nodup]
        refine ⟨by trivial, ?_⟩
        have := liveTotal_erase hn
        omega
    have := limit_run (cs := cs) (st := (bfree st p).2) (budget_free hi hok.1) hok.2
      (by rw [hb.1]; exact h0) (by rw [hb.1]; exact h63) (by rw [hb.1]; exact hb.2)
    rw [hb.1] at this
    exact this

theorem budget_init (bsize : Int) (g : Nat) : BudgetInv g (Budget.init bsize g) := by
  refine ⟨by simp [Budget.init], by simp [Budget.init, liveTotal], by simp [Budget.init, liveTotal]⟩

/-- C22: for every sequence of allocations and releases and every limit, `bused` is the total size of the live buffers, and
the total never exceeds the limit, provided that `bused` is 0 at first.  The code does not initialise it; see
`C22_budget_violated`. -/
theorem C22_budget_partial (bsize : Int) (cs : List BufCall) (h : BufOK (Budget.init bsize 0) cs) :
    (bufRun (Budget.init bsize 0) cs).bused = liveTotal (bufRun (Budget.init bsize 0) cs).live ∧
    (0 ≤ bsize → bsize < 2 ^ 63 → (liveTotal (bufRun (Budget.init bsize 0) cs).live : Int) ≤ bsize) := by
  have hi := budget_run (budget_init bsize 0) h
  refine ⟨?_, ?_⟩
  · rw [hi.used, Nat.zero_add, Nat.mod_eq_of_lt]
    have := hi.small
    simp only [sizeMod]; omega
  · intro h0 h63
    have := (limit_run (budget_init bsize 0) h h0 h63 (by simp [Budget.init, liveTotal])).2
    have e : (Budget.init bsize 0).bsize = bsize := rfl
    rw [e] at this
    omega

/-- C22: with a limit, a request succeeds exactly when the live buffers and the new one fit (and memory is available). -/
theorem C22_limit_partial {bsize : Int} (h0 : 0 ≤ bsize) (h63 : bsize < 2 ^ 63) (cs : List BufCall)
    (h : BufOK (Budget.init bsize 0) cs) (size a : Nat) (hs : size < 2 ^ 63) :
    ((balloc (bufRun (Budget.init bsize 0) cs) size (some a)).1 = .done ↔
      (liveTotal (bufRun (Budget.init bsize 0) cs).live + size : Int) ≤ bsize) ∧
    ((balloc (bufRun (Budget.init bsize 0) cs) size (some a)).1 = .failed ↔
      bsize < (liveTotal (bufRun (Budget.init bsize 0) cs).live + size : Int)) := by
  have hi := budget_run (budget_init bsize 0) h
  have hb := (limit_run (budget_init bsize 0) h h0 h63 (by simp [Budget.init, liveTotal])).1
  have e : (Budget.init bsize 0).bsize = bsize := rfl
  rw [e] at hb
  obtain ⟨st, hst⟩ : ∃ st, st = bufRun (Budget.init bsize 0) cs := ⟨_, rfl⟩
  rw [← hst] at hi hb ⊢
  have hsm := hi.small
  have hu := hi.used
  rw [Nat.zero_add, Nat.mod_eq_of_lt (by simp only [sizeMod]; omega)] at hu
  have hsum : (st.bused + size) % sizeMod = st.bused + size := Nat.mod_eq_of_lt (by simp only [sizeMod]; omega)
  have hbs : (bsize % (sizeMod : Int)).toNat = bsize.toNat := by
    rw [Int.emod_eq_of_lt h0 (by simp only [sizeMod]; omega)]
  have hsz : ¬ (size + 8) % sizeMod < 8 := by
    rw [Nat.mod_eq_of_lt (by simp only [sizeMod]; omega)]; omega
  unfold balloc
  rw [hb, hsum, hbs, hu]
  by_cases hc : bsize ≠ unlimited ∧ bsize.toNat < liveTotal st.live + size
  · rw [if_pos hc]
    simp only [reduceCtorEq, false_iff, true_iff]
    omega
  · rw [if_neg hc]
    have hne : bsize ≠ unlimited := by simp only [unlimited]; omega
    have : liveTotal st.live + size ≤ bsize.toNat := Decidable.byContradiction (fun hn => hc ⟨hne, by omega⟩)
    simp only [Option.elim_some, if_neg hsz, reduceCtorEq, false_iff, true_iff]
    omega

/-- Whatever the memory contained at first: a failed request changes nothing, and releasing a buffer gives the amount back
exactly. -/
theorem C22_failed (st : Budget) (size : Nat) (p : Option Nat) (h : (balloc st size p).1 = .failed) :
    (balloc st size p).2 = st := by
  unfold balloc at h ⊢
  split
  · rfl
  · rename_i hc
    rw [if_neg hc] at h
    cases p with
    | none => rfl
    | some a =>
      simp only [Option.elim_some] at h ⊢
      split <;> rename_i hc2
      · rfl
      · rw [if_neg hc2] at h; simp at h

theorem C22_release (bsize : Int) (g : Nat) (cs : List BufCall) (h : BufOK (Budget.init bsize g) cs) (size a : Nat)
    (hs : size < 2 ^ 63)
    (hd : (balloc (bufRun (Budget.init bsize g) cs) size (some a)).1 = .done) :
    bfree (balloc (bufRun (Budget.init bsize g) cs) size (some a)).2 (some a) =
      (.done, bufRun (Budget.init bsize g) cs) := by
  have hi := budget_run (budget_init bsize g) h
  obtain ⟨st, hst⟩ : ∃ st, st = bufRun (Budget.init bsize g) cs := ⟨_, rfl⟩
  rw [← hst] at hi hd ⊢
  unfold balloc at hd ⊢
  split at hd
  · simp at hd
  · rename_i hc
    rw [if_neg hc]
    simp only [Option.elim_some] at hd ⊢
    split at hd
    · simp at hd
    · rename_i hc2
      rw [if_neg hc2]
      simp only [bfree, Option.elim_some, List.find?_cons, beq_self_eq_true, List.erase_cons_head]
      have hu : st.bused < sizeMod := by rw [hi.used]; exact Nat.mod_lt _ (by simp [sizeMod])
      have hsz : size % sizeMod = size := Nat.mod_eq_of_lt (by simp only [sizeMod]; omega)
      have : ((st.bused + size) % sizeMod + (sizeMod - size % sizeMod)) % sizeMod = st.bused := by
        rw [hsz, Nat.mod_add_mod]
        have : st.bused + size + (sizeMod - size) = st.bused + sizeMod := by
          have : size ≤ sizeMod := by simp only [sizeMod]; omega
          omega
        rw [this, Nat.add_mod_right, Nat.mod_eq_of_lt hu]
      rw [this]

/-- C22 is violated because `bused` is not initialised: the memory of the new object may contain a value such that the first
request of one byte with a limit of 100 bytes fails although no buffer is live. -/
theorem C22_budget_violated : ∃ g : Nat, g < 2 ^ 64 ∧ BufOK (Budget.init 100 g) [.alloc 1 (some 16)] ∧
    (Budget.init 100 g).bused ≠ liveTotal (Budget.init 100 g).live ∧
    (balloc (Budget.init 100 g) 1 (some 16)).1 = .failed := by
  refine ⟨1000, by omega, ?_, by decide, by decide⟩
  simp [BufOK, MallocOK, Budget.init, liveTotal]

/-- A sequence with a request over the limit, and a release. -/
def bfCalls : List BufCall := [.alloc 60 (some 16), .alloc 50 (some 200), .free (some 16), .alloc 50 (some 16)]

example : BufOK (Budget.init 100 0) bfCalls ∧ liveTotal (bufRun (Budget.init 100 0) bfCalls).live = 50 := by
  constructor
  · simp [bfCalls, BufOK, MallocOK, Budget.init, liveTotal, balloc, bfree, unlimited, sizeMod]
  · decide

example : (balloc (bufRun (Budget.init 100 0) bfCalls) 10 (some 500)).1 = .done ∧
    (balloc (bufRun (Budget.init 100 0) bfCalls) 51 (some 500)).1 = .failed := by decide

/-! ### C48 -/

/-- Pairwise disjoint blocks of at least `bsize` bytes; live buffers are in the used part of blocks. -/
structure PoolInv (p : Pool) (live : List (Nat × Nat)) : Prop where
  apart : (Spec.Pool.memory p).Pairwise Apart
  shape : ∀ b ∈ p.used ++ p.spare, b.beg ≤ b.cur ∧ b.cur ≤ b.fin ∧ p.bsize ≤ b.fin - b.beg
  fresh : ∀ b ∈ p.spare, b.cur = b.beg
  some : p.used ≠ []
  inside : ∀ x ∈ live, ∃ b ∈ p.used, b.beg ≤ x.1 ∧ x.1 + x.2 ≤ b.cur
  disjoint : live.Pairwise Apart

theorem poolTake_inv {p q : Pool} {live : List (Nat × Nat)} {size a : Nat} (hi : PoolInv p live)
    (hroom : ∀ h ∈ p.used.head?, h.cur + size ≤ h.fin) (h : poolTake p size = .ok (q, a)) :
    PoolInv q ((a, size) :: live) ∧ (∃ b ∈ q.used, b.beg ≤ a ∧ a + size ≤ b.fin) := by
  cases hu : p.used with
  | nil => exact absurd hu hi.some
  | cons b r =>
    unfold poolTake at h
    rw [hu] at h hroom
    simp only [List.head?_cons, Option.elim_some, List.tail_cons, Res.ok.injEq, Prod.mk.injEq] at h
    obtain ⟨rfl, rfl⟩ := h
    have hr := hroom b rfl
    have hb := hi.shape b (by rw [hu]; simp)
    have hap := hi.apart
    unfold Spec.Pool.memory at hap
    rw [hu] at hap
    have hmem : ∀ x ∈ live, ∃ c ∈ b :: r, c.beg ≤ x.1 ∧ x.1 + x.2 ≤ c.cur := by
      intro x hx
      have := hi.inside x hx
      rwa [hu] at this
    refine ⟨⟨?_, ?_, ?_, by simp, ?_, ?_⟩, ⟨_, List.mem_cons_self, hb.1, hr⟩⟩
    · exact hap
    · intro c hc
      rcases List.mem_append.mp hc with hc | hc
      · rcases List.mem_cons.mp hc with rfl | hc
        · simp only; exact ⟨by omega, hr, hb.2.2⟩
        · exact hi.shape c (by rw [hu]; simp [hc])
      · exact hi.shape c (List.mem_append_right _ hc)
    · exact hi.fresh
    · intro x hx
      rcases List.mem_cons.mp hx with rfl | hx
      · exact ⟨_, List.mem_cons_self, hb.1, by simp⟩
      · obtain ⟨c, hc, h1, h2⟩ := hmem x hx
        rcases List.mem_cons.mp hc with rfl | hc
        · exact ⟨_, List.mem_cons_self, h1, by simp only; omega⟩
        · exact ⟨c, List.mem_cons_of_mem _ hc, h1, h2⟩
    · rw [List.pairwise_cons]
      refine ⟨?_, hi.disjoint⟩
      intro x hx
      obtain ⟨c, hc, h1, h2⟩ := hmem x hx
      rcases List.mem_cons.mp hc with rfl | hc
      · right; exact h2
      · simp only [List.cons_append, List.map_cons, List.pairwise_cons] at hap
        have hd := hap.1 (c.beg, c.fin - c.beg) (List.mem_map.mpr ⟨c, List.mem_append_left _ hc, rfl⟩)
        have hc' := hi.shape c (by rw [hu]; simp [hc])
        simp only [Apart] at hd ⊢
        omega

theorem pool_push {p : Pool} {live : List (Nat × Nat)} (hi : PoolInv p live) (hne : live.Pairwise Apart) {k a : Nat}
    (hk : p.bsize ≤ k) (hm : ∀ b ∈ Spec.Pool.memory p, Apart (a, k) b) :
    PoolInv { p with used := poolBlock k a :: p.used } live := by
  refine ⟨?_, ?_, hi.fresh, by simp, ?_, hne⟩
  · have : Spec.Pool.memory { p with used := poolBlock k a :: p.used } = (a, k) :: Spec.Pool.memory p := by
      simp [Spec.Pool.memory, poolBlock]
    rw [this, List.pairwise_cons]
    exact ⟨hm, hi.apart⟩
  · intro b hb
    simp only [List.cons_append, List.mem_cons] at hb
    rcases hb with rfl | hb
    · simp only [poolBlock]; omega
    · exact hi.shape b hb
  · intro x hx
    obtain ⟨b, hb, h⟩ := hi.inside x hx
    exact ⟨b, List.mem_cons_of_mem _ hb, h⟩

theorem pool_recycle {p : Pool} {live : List (Nat × Nat)} (hi : PoolInv p live) {b : PBlock} {r : List PBlock}
    (hs : p.spare = b :: r) : PoolInv { p with used := b :: p.used, spare := r } live := by
  have hperm : (b :: p.used ++ r).Perm (p.used ++ p.spare) := by
    rw [hs]
    exact List.perm_middle.symm
  refine ⟨?_, ?_, ?_, by simp, ?_, hi.disjoint⟩
  · unfold Spec.Pool.memory
    refine (hperm.map _).symm.pairwise hi.apart ?_
    intro x y h
    exact h.symm
  · intro c hc
    exact hi.shape c (hperm.mem_iff.mp hc)
  · intro c hc
    exact hi.fresh c (by rw [hs]; exact List.mem_cons_of_mem _ hc)
  · intro x hx
    obtain ⟨c, hc, h⟩ := hi.inside x hx
    exact ⟨c, List.mem_cons_of_mem _ hc, h⟩

theorem poolAlloc_inv {p q : Pool} {live : List (Nat × Nat)} {size a : Nat} {m : Option Nat} (hi : PoolInv p live)
    (hm : ∀ x ∈ m, ∀ k ∈ poolNeeds p size, ∀ b ∈ Spec.Pool.memory p, Apart (x, k) b)
    (h : poolAlloc p size m = .ok (q, a)) :
    PoolInv q ((a, size) :: live) ∧ (∃ b ∈ q.used, b.beg ≤ a ∧ a + size ≤ b.fin) := by
  cases hu : p.used with
  | nil => exact absurd hu hi.some
  | cons b r =>
    unfold poolAlloc at h
    unfold poolNeeds at hm
    rw [hu] at h hm
    simp only [List.head?_cons, Option.elim_some] at h hm
    split at h
    · rename_i hfull
      rw [if_pos hfull] at hm
      split at h
      · simp at h
      · rename_i hinf
        have hinf' : p.inf = true := by simpa using hinf
        rw [if_pos hinf'] at hm
        split at h
        · rename_i hbig
          rw [if_pos hbig] at hm
          cases m with
          | none => simp at h
          | some x =>
            simp only [Option.elim_some] at h
            have hp := pool_push hi hi.disjoint (k := size) (a := x) (by omega) (hm x rfl size rfl)
            rw [hu] at hp
            exact poolTake_inv hp (by simp [poolBlock]) h
        · rename_i hbig
          rw [if_neg hbig] at hm
          cases hs : p.spare with
          | nil =>
            rw [hs] at h hm
            simp only [List.head?_nil, Option.elim_none, if_true] at h hm
            cases m with
            | none => simp at h
            | some x =>
              simp only [Option.elim_some] at h
              have hp := pool_push hi hi.disjoint (k := p.bsize) (a := x) (by omega) (hm x rfl p.bsize rfl)
              rw [hu, hs] at hp
              exact poolTake_inv hp (by simp [poolBlock]; omega) h
          | cons c r' =>
            rw [hs] at h
            simp only [List.head?_cons, Option.elim_some, List.tail_cons] at h
            have hp := pool_recycle hi hs
            rw [hu] at hp
            refine poolTake_inv hp ?_ h
            intro c' hc'
            simp only [List.head?_cons, Option.mem_def, Option.some.injEq] at hc'
            subst hc'
            have h1 := hi.fresh c (by rw [hs]; simp)
            have h2 := hi.shape c (by rw [hs]; simp)
            omega
    · rename_i hroom
      refine poolTake_inv hi ?_ h
      rw [hu]
      intro c hc
      simp only [List.head?_cons, Option.mem_def, Option.some.injEq] at hc
      subst hc
      omega

theorem poolFree_inv {p q : Pool} {live : List (Nat × Nat)} (hi : PoolInv p live) (h : poolFree p = .ok q) :
    PoolInv q [] := by
  cases hu : p.used with
  | nil => exact absurd hu hi.some
  | cons b r =>
    unfold poolFree at h
    rw [hu] at h
    simp only [List.head?_cons, Option.elim_some, List.tail_cons, Res.ok.injEq] at h
    subst h
    have hap := hi.apart
    unfold Spec.Pool.memory at hap
    rw [hu] at hap
    have hsh := hi.shape
    rw [hu] at hsh
    refine ⟨?_, ?_, ?_, by simp, by simp, by simp⟩
    · unfold Spec.Pool.memory
      simpa [List.map_append, Function.comp_def] using hap
    · intro c hc
      simp only [List.cons_append, List.nil_append, List.mem_cons, List.mem_append, List.mem_map] at hc
      rcases hc with rfl | ⟨d, hd, rfl⟩ | hc
      · have := hsh b (by simp)
        simp only; omega
      · have := hsh d (by simp [hd])
        simp only; omega
      · exact hsh c (by simp [hc])
    · intro c hc
      simp only [List.mem_append, List.mem_map] at hc
      rcases hc with ⟨d, _, rfl⟩ | hc
      · rfl
      · exact hi.fresh c hc

theorem pool_run {p p' : Pool} {live live' : List (Nat × Nat)} (hr : PoolRun p live p' live') (hi : PoolInv p live) :
    PoolInv p' live' := by
  induction hr with
  | nil => exact hi
  | alloc size m a hm h _ ih => exact ih (poolAlloc_inv hi hm h).1
  | fail _ _ _ _ ih => exact ih hi
  | free h _ ih => exact ih (poolFree_inv hi h)

theorem poolInit_inv {bsize : Int} (h : bsize ≠ 0) (a : Nat) : PoolInv (poolInit bsize a) [] := by
  unfold poolInit
  split
  · refine ⟨by simp [Spec.Pool.memory], ?_, by simp, by simp, by simp, by simp⟩
    simp [poolBlock]
  · refine ⟨by simp [Spec.Pool.memory], ?_, by simp, by simp, by simp, by simp⟩
    simp [poolBlock]
    omega

/-- C48: after every sequence of allocations and releases, the buffers handed out since the last release do not overlap and
lie inside the memory of the pool, and no call has undefined behaviour.  A pool of size 0 is excluded, see
`C48_zero_violated`. -/
theorem C48_pool_partial {bsize : Int} (h : bsize ≠ 0) (m : Nat) {p : Pool} {live : List (Nat × Nat)}
    (hr : PoolRun (poolInit bsize m) [] p live) :
    live.Pairwise Apart ∧ (∀ x ∈ live, ∃ b ∈ Spec.Pool.memory p, b.1 ≤ x.1 ∧ x.1 + x.2 ≤ b.1 + b.2) ∧
    (∀ size q, poolAlloc p size q ≠ .ub) ∧ poolFree p ≠ .ub := by
  have hi := pool_run hr (poolInit_inv h m)
  refine ⟨hi.disjoint, ?_, ?_, ?_⟩
  · intro x hx
    obtain ⟨b, hb, h1, h2⟩ := hi.inside x hx
    refine ⟨_, List.mem_map.mpr ⟨b, List.mem_append_left _ hb, rfl⟩, h1, ?_⟩
    have := hi.shape b (List.mem_append_left _ hb)
    simp only
    omega
  · intro size q hub
    cases hu : p.used with
    | nil => exact hi.some hu
    | cons b r =>
      unfold poolAlloc at hub
      rw [hu] at hub
      simp only [List.head?_cons, Option.elim_some, poolTake] at hub
      split at hub
      · split at hub
        · simp at hub
        · split at hub
          · cases q <;> simp at hub
          · cases hs : p.spare with
            | nil => rw [hs] at hub; cases q <;> simp at hub
            | cons c r' => rw [hs] at hub; simp at hub
      · rw [hu] at hub
        simp at hub
  · intro hub
    cases hu : p.used with
    | nil => exact hi.some hu
    | cons b r =>
      unfold poolFree at hub
      rw [hu] at hub
      simp at hub

/-- A pool of size 0 has a null `head`: the first allocation dereferences it. -/
theorem C48_zero_violated (m : Nat) (size : Nat) (q : Option Nat) : poolAlloc (poolInit 0 m) size q = .ub := rfl

/-- An unlimited pool: two buffers in the first block, a large one in a block of its own, release, and an allocation that
uses a recycled block. -/
example : ∃ p live, PoolRun (poolInit (-1) 4096) [] p live ∧ live.length = 2 := by
  have h1 : poolAlloc (poolInit (-1) 4096) 100 none =
      .ok (⟨209715200, true, [⟨4096, 209719296, 4196⟩], []⟩, 4096) := by decide
  have h2 : poolAlloc ⟨209715200, true, [⟨4096, 209719296, 4196⟩], []⟩ 300000000 (some 1000000000) =
      .ok (⟨209715200, true, [⟨1000000000, 1300000000, 1300000000⟩, ⟨4096, 209719296, 4196⟩], []⟩, 1000000000) := by decide
  have h3 : poolFree ⟨209715200, true, [⟨1000000000, 1300000000, 1300000000⟩, ⟨4096, 209719296, 4196⟩], []⟩ =
      .ok ⟨209715200, true, [⟨1000000000, 1300000000, 1000000000⟩], [⟨4096, 209719296, 4096⟩]⟩ := by decide
  have h4 : poolAlloc ⟨209715200, true, [⟨1000000000, 1300000000, 1000000000⟩], [⟨4096, 209719296, 4096⟩]⟩ 200000000 none =
      .ok (⟨209715200, true, [⟨1000000000, 1300000000, 1200000000⟩], [⟨4096, 209719296, 4096⟩]⟩, 1000000000) := by decide
  have h5 : poolAlloc ⟨209715200, true, [⟨1000000000, 1300000000, 1200000000⟩], [⟨4096, 209719296, 4096⟩]⟩ 200000000 none =
      .ok (⟨209715200, true, [⟨4096, 209719296, 200004096⟩, ⟨1000000000, 1300000000, 1200000000⟩], []⟩, 4096) := by decide
  refine ⟨_, _, .alloc 100 none 4096 (by simp) h1 (.alloc 300000000 (some 1000000000) 1000000000 ?_ h2
    (.free h3 (.alloc 200000000 none _ (by simp) h4 (.alloc 200000000 none _ (by simp) h5 (.nil _ _))))), rfl⟩
  intro x hx k hk b hb
  simp only [Option.mem_def, Option.some.injEq] at hx
  subst hx
  have hk' : 300000000 = k := by simpa [poolNeeds] using hk
  subst hk'
  simp [Spec.Pool.memory] at hb
  subst hb
  simp [Apart]

end Verif.Props
