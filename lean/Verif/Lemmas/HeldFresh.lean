import Verif.Spec.Held

/-
Every resource is a token of its own: nothing is held twice, whatever the calls do.
-/

namespace Verif.Held

/-- All held tokens differ, and new ones differ from all of them. -/
def Fr (s : St) : Prop := s.held.Nodup ∧ ∀ t ∈ s.held, t.n < s.next

def Kp {α : Type} (m : M α) : Prop := ∀ s, Fr s → ∀ o ∈ m s, Fr o.2

theorem kp_pure {α : Type} (a : α) : Kp (pure a : M α) := by
  intro s hs o ho
  simp [pure] at ho
  rw [ho]; exact hs

theorem kp_bind {α β : Type} {m : M α} {f : α → M β} (hm : Kp m) (hf : ∀ a, Kp (f a)) : Kp (m >>= f) := by
  intro s hs o ho
  obtain ⟨o', h1, h2⟩ := List.mem_flatMap.mp (show o ∈ (m s).flatMap _ from ho)
  have := hm s hs o' h1
  obtain ⟨x, s'⟩ := o'
  cases x with
  | ok a => exact hf a s' this o h2
  | thrown => simp at h2; rw [h2]; exact this
  | ub => simp at h2; rw [h2]; exact this

theorem kp_pick : Kp pick := by
  intro s hs o ho
  simp [pick] at ho
  rcases ho with rfl | rfl <;> exact hs

theorem kp_getF : Kp getF := by
  intro s hs o ho
  simp [getF] at ho
  rw [ho]; exact hs

theorem kp_setF (g : File → File) : Kp (setF g) := by
  intro s hs o ho
  simp [setF] at ho
  rw [ho]; exact hs

theorem kp_put (t : Tok) : Kp (put t) := by
  intro s hs o ho
  unfold put at ho
  split at ho
  · simp at ho
    rw [ho]
    exact ⟨hs.1.erase t, fun x hx => hs.2 x (List.mem_of_mem_erase hx)⟩
  · simp at ho
    rw [ho]; exact hs

theorem kp_putAll : (ts : List Tok) → Kp (putAll ts)
  | [] => kp_pure ()
  | t :: ts => kp_bind (kp_put t) (fun _ => kp_putAll ts)

theorem kp_use (t : Tok) : Kp (use t) := by
  intro s hs o ho
  unfold use at ho
  split at ho <;> (simp at ho; rw [ho]; exact hs)

theorem kp_useAll : (ts : List Tok) → Kp (useAll ts)
  | [] => kp_pure ()
  | t :: ts => kp_bind (kp_use t) (fun _ => kp_useAll ts)

theorem kp_move (k : Kind) : Kp (move k) := by
  intro s hs o ho
  unfold move at ho
  split at ho <;> (simp at ho; rw [ho]; exact hs)

theorem kp_moveIf (k : Kind) : Kp (moveIf k) := by
  intro s hs o ho
  unfold moveIf at ho
  split at ho <;> (simp at ho; rw [ho]; exact hs)

theorem fr_take {s : St} (k : Kind) (hs : Fr s) : Fr (s.take k) := by
  refine ⟨List.nodup_cons.mpr ⟨fun h => ?_, hs.1⟩, fun t ht => ?_⟩
  · exact absurd (hs.2 _ h) (Nat.lt_irrefl _)
  · rcases List.mem_cons.mp ht with rfl | h
    · exact Nat.lt_succ_self _
    · exact Nat.lt_succ_of_lt (hs.2 t h)

theorem kp_step (x : Step) : Kp (step x) := by
  cases x with
  | acq k =>
    intro s hs o ho
    simp [step] at ho
    rcases ho with rfl | rfl
    · exact fr_take k hs
    · exact hs
  | mal k =>
    intro s hs o ho
    simp [step] at ho
    rw [ho]; exact fr_take k hs
  | acqU k =>
    intro s hs o ho
    simp [step] at ho
    rcases ho with rfl | rfl
    · exact fr_take k hs
    · exact hs
  | call =>
    intro s hs o ho
    simp [step] at ho
    rcases ho with rfl | rfl <;> exact hs
  | rel k => exact kp_bind (kp_move k) (fun t => kp_put t)
  | relIf k =>
    refine kp_bind (kp_moveIf k) (fun t => ?_)
    cases t with
    | none => exact kp_pure ()
    | some t => exact kp_put t

theorem kp_run : (xs : List Step) → Kp (run xs)
  | [] => kp_pure ()
  | x :: xs => kp_bind (kp_step x) (fun _ => kp_run xs)

theorem kp_frame {α : Type} (ks : List Kind) {m : M α} (hm : Kp m) : Kp (frame ks m) := by
  intro s hs o ho
  unfold frame at ho
  obtain ⟨o1, h1, h2⟩ := List.mem_flatMap.mp ho
  obtain ⟨e, h3, h4⟩ := List.mem_map.mp h2
  have g1 : Fr o1.2 := hm _ (show Fr { s with loc := [] } from hs) o1 h1
  have g2 : Fr e.2 := kp_run _ _ g1 e h3
  obtain ⟨x, s'⟩ := e
  cases x <;> (simp only at h4; rw [← h4]; exact g2)

theorem kp_caught {m : M Unit} (hm : Kp m) : Kp (caught m) := by
  intro s hs o ho
  unfold caught at ho
  obtain ⟨e, h1, h2⟩ := List.mem_map.mp ho
  have := hm s hs e h1
  obtain ⟨x, s'⟩ := e
  cases x <;> (simp only at h2; rw [← h2]; exact this)

theorem kp_ite {α : Type} {p : Prop} [Decidable p] {a b : M α} (ha : Kp a) (hb : Kp b) : Kp (if p then a else b) := by
  split
  · exact ha
  · exact hb

/-- The rules for programs. -/
macro "keeps" : tactic => `(tactic| with_reducible repeat' (first
  | exact kp_pure _ | exact kp_pick | exact kp_getF | exact kp_setF _ | exact kp_put _ | exact kp_putAll _ | exact kp_use _
  | exact kp_useAll _ | exact kp_move _ | exact kp_moveIf _ | exact kp_run _ | assumption
  | apply kp_frame | apply kp_caught | apply kp_ite | refine kp_bind ?_ (fun _ => ?_) | dsimp only))

theorem kp_buildReq (c : Conf) (p : WArgs) : Kp (buildReq c p) := by unfold buildReq; keeps

theorem kp_enqueue : Kp enqueue := by unfold enqueue; keeps

theorem kp_append (did : Nat) : Kp (append did) := by unfold append; keeps

theorem kp_dsetiWrite (c : Conf) (p : WArgs) : Kp (dsetiWrite c p) := by
  have h1 := kp_buildReq c p
  have h2 := kp_append p.did
  have h3 := kp_enqueue
  unfold dsetiWrite; keeps

theorem kp_write (c : Conf) (p : WArgs) : Kp (write c p) := by
  have h1 := kp_dsetiWrite c p
  unfold write; keeps

theorem kp_flushWrites (c : Conf) (more else_ : Bool) : Kp (flushWrites c more else_) := by unfold flushWrites; keeps

theorem kp_metaflush (c : Conf) (n : Nat) : Kp (metaflush c n) := by unfold metaflush; keeps

theorem kp_entries : (n : Nat) → Kp (entries n)
  | 0 => kp_pure _
  | n + 1 => by
    have := kp_entries n
    unfold entries; keeps

theorem kp_parse (c : Conf) (n : Nat) : Kp (parse c n) := by
  have := kp_entries n
  unfold parse; keeps

theorem kp_loadAll (c : Conf) : (ns : List Nat) → Kp (loadAll c ns)
  | [] => kp_pure _
  | n :: ns => by
    have h1 := kp_parse c n
    have h2 := kp_loadAll c ns
    unfold loadAll; keeps

theorem kp_metaupdate (c : Conf) (n : Nat) : Kp (metaupdate c n) := by
  have h1 := kp_metaflush c n
  have h2 : Kp clearIdx := kp_setF _
  have h3 := kp_loadAll c
  unfold metaupdate; keeps
  all_goals exact h3 _

theorem kp_metapart (c : Conf) (m : Nat) : Kp (metapart c m) := by
  have h1 := kp_parse c m
  have h2 : Kp clearIdx := kp_setF _
  unfold metapart; keeps

theorem kp_metaparts (c : Conf) : (ms : List Nat) → Kp (metaparts c ms)
  | [] => kp_pure _
  | m :: ms => kp_bind (kp_metapart c m) (fun _ => kp_metaparts c ms)

theorem kp_search (c : Conf) (e : Env) : Kp (search c e) := by
  have h1 := kp_metaflush c e.n
  have h2 := kp_metaparts c e.parts
  have h3 := kp_metaupdate c e.n
  unfold search; keeps

theorem kp_post (r : RQ) : Kp (post r) := by
  have h : ∀ d m, Kp (do run [.call]; put d; put m : M Unit) := fun d m => by keeps
  have h' : ∀ d m, Kp (fun s => if d ∈ s.held then (do run [.call]; put d; put m : M Unit) s else [(.thrown, s)]) := by
    intro d m s hs o ho
    by_cases hd : d ∈ s.held
    · exact h d m s hs o (by simpa only [hd, if_true] using ho)
    · have : o = (.thrown, s) := by simpa only [hd, if_false, List.mem_singleton] using ho
      rw [this]; exact hs
  obtain ⟨_, _, x, p, d, m, _⟩ := r
  unfold post
  cases d <;> cases m <;> cases x <;> cases p <;> (dsimp only; keeps) <;>
    (refine kp_bind (h' _ _) (fun _ => ?_); keeps)

theorem kp_posts : (rs : List RQ) → Kp (posts rs)
  | [] => kp_pure _
  | r :: rs => kp_bind (kp_post r) (fun _ => kp_posts rs)

theorem kp_performRead (c : Conf) (e : Env) (rs : List RQ) : Kp (performRead c e rs) := by
  have h1 := kp_search c e
  have h2 := kp_posts rs
  unfold performRead; keeps

theorem kp_flushReads (c : Conf) (e : Env) (rs : List RQ) : Kp (flushReads c e rs) := by
  have h1 := kp_performRead c e rs
  unfold flushReads; keeps

theorem kp_dsetiRead (c : Conf) (p : RArgs) (sel : Tok) : Kp (dsetiRead c p sel) := by
  have h1 := kp_flushWrites c p.more p.else_
  have h2 := kp_flushReads c p.env
  unfold dsetiRead; keeps
  all_goals exact h2 _

theorem kp_read (c : Conf) (p : RArgs) : Kp (read c p) := by
  have h := kp_dsetiRead c p
  unfold read; keeps
  all_goals exact h _

theorem kp_flush (c : Conf) (p : FArgs) : Kp (flush c p) := by
  have h1 := kp_flushWrites c p.more p.else_
  have h2 := kp_flushReads c p.env
  unfold flush; keeps
  all_goals exact h2 _

theorem kp_close (c : Conf) (p : FArgs) : Kp (close c p) := by
  have h1 := kp_flushWrites c p.more p.else_
  have h2 := kp_metaflush c p.env.n
  unfold close; keeps

theorem kp_call (c : Conf) (x : Call) : Kp (call c x) := by
  cases x with
  | write p => exact kp_write c p
  | read p => exact kp_read c p
  | flush p => exact kp_flush c p

theorem kp_runs (c : Conf) : (xs : List Call) → Kp (runs c xs)
  | [] => kp_pure _
  | x :: xs => kp_bind (kp_call c x) (fun _ => kp_bind (kp_runs c xs) (fun _ => kp_pure _))

end Verif.Held
