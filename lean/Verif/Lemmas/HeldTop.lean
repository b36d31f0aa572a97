import Verif.Lemmas.HeldWrite

/-
What calls of the application lose.
-/

namespace Verif.Held

theorem wp_caught {m : M Unit} {s : St} {Q : Out Bool → St → Prop}
    (h : wp m s fun o s' => match o with | .ok _ => Q (.ok true) s' | .thrown => Q (.ok false) s' | .ub => Q .ub s') :
    wp (caught m) s Q := by
  intro o ho
  obtain ⟨o1, h1, h2⟩ := List.mem_map.mp (show o ∈ (m s).map _ from ho)
  have := h o1 h1
  obtain ⟨x, s'⟩ := o1
  cases x with
  | ok a => simp at h2; rw [← h2]; exact this
  | thrown => simp at h2; rw [← h2]; exact this
  | ub => simp at h2; rw [← h2]; exact this

/-- Between calls: everything that is held belongs to the file object or to `Y`, which has been lost. -/
structure Own (s : St) (Y : List Tok) : Prop where
  good : Good s (s.file.rq.flatMap RQ.toks ++ Y)
  loc : s.loc = []
  inv : Inv s.file
  rq : ∀ r ∈ s.file.rq, r.WF ∧ r.dtype = none
  frag : Frag Y

theorem own_opened (md : List Nat) : Own (St.opened md) [] := by
  refine ⟨?_, rfl, ⟨?_, ?_, ?_, ?_, ?_⟩, ?_, frag_nil⟩
  · unfold Good; exact List.Perm.refl _
  all_goals simp [St.opened, File.opened]

theorem writeFrame_fn (c : Conf) (p : WArgs) : Fn (frame [.sel, .space] do
    run ((if p.all then [.acq .space] else []) ++ [.acq .sel])
    dsetiWrite c p) fun f _ f' L => L = writeLoss c p ∧ Kept f f' := by
  refine Fn.frame ?_
  intro s X h0
  have c1 : ∀ all : Bool, chk [.sel, .space] ((if all then [.acq .space] else []) ++ [.acq .sel]) []
      [(.sel :: if all then [.space] else [], [])] = true ∧
      left [.sel, .space] (.sel :: if all then [.space] else []) = [] := by decide
  obtain ⟨c1, c2⟩ := c1 p.all
  refine wp_bind (h0.run c1 (fun _ h => h) ?_)
  intro e' he s1 Z hf1 hZ h1
  simp only [List.mem_singleton] at he
  subst he
  simp only [List.map_eq_nil_iff] at hZ
  subst hZ
  simp only [List.nil_append] at h1
  refine h1.fn (dsetiWrite_fn c p) (fin := [.sel, .space]) (by rw [c2]; rfl) (fun _ h => h) ?_
  rintro _ s2 Z ⟨hL, hk⟩ h2
  refine ⟨_, _, h2, by rw [c2]; rfl, ?_, ?_⟩
  · rw [c2, List.append_nil, List.nil_append]
    exact hL
  · rw [hf1] at hk
    exact hk

theorem write_own {c : Conf} {p : WArgs} {s : St} {Y : List Tok} (h : Own s Y) : wp (write c p) s fun o s' => ∃ Z, Own s' (Z ++ Y) ∧
    s'.file.rq = s.file.rq ∧ (o = .ok false ∨ o = .ok true ∧ Z.map (·.kind) = writeLoss c p ∧ Kept s.file s'.file) := by
  unfold write
  refine wp_caught (wp_mono (writeFrame_fn c p s _ h.good h.inv) ?_)
  intro o s' ho
  have key : ∀ Z, Good s' (Z ++ (s.file.rq.flatMap RQ.toks ++ Y)) → Frag Z → s'.loc = s.loc → s'.file.rq = s.file.rq → Inv s'.file → Own s' (Z ++ Y) := by
    intro Z hg hf hl hq hi
    refine ⟨?_, by rw [hl]; exact h.loc, hi, by rw [hq]; exact h.rq, hf.append h.frag⟩
    rw [hq]
    unfold Good at hg ⊢
    permc hg
  cases o with
  | ub => exact ho.elim
  | thrown =>
    obtain ⟨a, b, d, Z, e, f⟩ := ho
    exact ⟨Z, key Z e f a b d, b, Or.inl rfl⟩
  | ok x =>
    obtain ⟨a, b, d, Z, e, f, g1, g2⟩ := ho
    exact ⟨Z, key Z e f a b d, b, Or.inr ⟨rfl, g1, g2⟩⟩

/-- What a read that succeeds does to the file and loses. -/
def ReadDone (c : Conf) (p : RArgs) (f f' : File) (L : List Kind) : Prop :=
  if p.empty then f' = f ∧ L = [.sel]
  else if p.queue then (∃ r, f' = { f with rq := f.rq ++ [r] }) ∧ L = []
  else f'.rq = f.rq ∧ Searched c p.env (flushedIf (p.coll && (f.pending || p.more || p.else_)) p.more p.else_ f) f' L

theorem read_own {c : Conf} {p : RArgs} {s : St} {Y : List Tok} (h : Own s Y) (hc : p.queue = true → p.conv = false) :
    wp (read c p) s fun o s' => ∃ Z, Own s' (Z ++ Y) ∧ (o = .ok false ∨ o = .ok true ∧ ReadDone c p s.file s'.file (Z.map (·.kind))) := by
  unfold read
  refine wp_caught (wp_frame ?_)
  have hl0 : ({ s with loc := [] } : St) = s := by rw [← h.loc]
  rw [hl0]
  have h0 : In s.file.rq (s.file.rq.flatMap RQ.toks ++ Y) [] [] s := ⟨⟨h.good, by rw [h.loc]; rfl⟩, frag_nil, h.inv, rfl⟩
  have c1 : ∀ all : Bool, chk [.space] ((if all then [.acq .space] else []) ++ [.acq .sel]) []
      [(.sel :: if all then [.space] else [], [])] = true ∧ .sel ∈ (.sel :: if all then [.space] else [] : List Kind) ∧
      left [.space] ((.sel :: if all then [.space] else [] : List Kind).erase .sel) = [] := by decide
  obtain ⟨c1, c2, c3⟩ := c1 p.all
  refine wp_bind (h0.run c1 ?_ ?_)
  · rintro s' ⟨Z, ks, h1, h2⟩
    refine ⟨_, ks, h1.at_, ?_⟩
    intro s'' W hW hl hf hp
    refine ⟨W ++ Z, ⟨?_, by rw [hl]; exact h.loc, hf ▸ h1.inv, by rw [hf, h1.rq]; exact h.rq, ((frag_kinds hW h2).append h1.frag).append h.frag⟩, Or.inl rfl⟩
    have hq : s''.file.rq = s.file.rq := by rw [hf, h1.rq]
    unfold Good
    rw [hq, hl, h.loc]
    permc hp
  intro e' he s1 Z hf1 hZ h1
  simp only [List.mem_singleton] at he
  subst he
  simp only [List.map_eq_nil_iff] at hZ
  subst hZ
  simp only [List.nil_append] at h1
  refine wp_bind (wp_move h1.at_ c2 ?_)
  intro sel s2 ks f2 a2
  have fs : s2.file = s.file := by rw [f2, hf1]
  have g2 : Good s2 (sel :: (s.file.rq.flatMap RQ.toks ++ Y)) := by simpa using a2.1
  -- the end of the frame
  have fin : ∀ {s' : St} {Z : List Tok} {o : Out Bool}, s'.loc = s2.loc → Good s' Z →
      (∀ s'', s''.loc = s.loc → s''.file = s'.file → s''.held.Perm (s''.file.toks ++ Z) →
      ∃ V, Own s'' (V ++ Y) ∧ (o = .ok false ∨ o = .ok true ∧ ReadDone c p s.file s''.file (V.map (·.kind)))) →
      ∃ Z ks, At s' Z ks ∧ ∀ s'' W, W.map (·.kind) = left [.space] ks → s''.loc = s.loc → s''.file = s'.file →
        s''.held.Perm (W ++ (s''.file.toks ++ Z)) →
        ∃ V, Own s'' (V ++ Y) ∧ (o = .ok false ∨ o = .ok true ∧ ReadDone c p s.file s''.file (V.map (·.kind))) := by
    intro s' Z o hl hg hk
    refine ⟨Z, (.sel :: if p.all then [.space] else [] : List Kind).erase .sel, ⟨hg, by rw [hl]; exact a2.2⟩, ?_⟩
    intro s'' W hW hl' hf hp
    rw [c3, List.map_eq_nil_iff] at hW
    subst hW
    exact hk s'' hl' hf (by simpa using hp)
  refine dsetiRead_wp ks g2 (fs ▸ h.inv) ?_ ?_ ?_ ?_
  · intro s' V l q i fr g
    refine fin l g ?_
    intro s'' l' f' p'
    refine ⟨V, ⟨?_, by rw [l']; exact h.loc, f' ▸ i, ?_, fr.append h.frag⟩, Or.inl rfl⟩
    · have hq : s''.file.rq = s.file.rq := by rw [f', q, fs]
      unfold Good
      rw [hq, l', h.loc]
      permc p'
    · rw [f', q, fs]; exact h.rq
  · intro he s' l f g
    refine fin l g ?_
    intro s'' l' f' p'
    have hf : s''.file = s.file := by rw [f', f, fs]
    refine ⟨[sel], ⟨?_, by rw [l']; exact h.loc, hf ▸ h.inv, by rw [hf]; exact h.rq, ?_⟩, Or.inr ⟨rfl, ?_⟩⟩
    · unfold Good
      rw [l', h.loc, hf]
      rw [hf] at p'
      permc p'
    · refine Frag.append ?_ h.frag
      intro t ht
      rw [List.mem_singleton] at ht
      rw [ht, ks]; rfl
    · unfold ReadDone
      rw [if_pos he]
      exact ⟨hf, by simp [ks]⟩
  · intro he hq r s' wf cv l f g
    refine fin l g ?_
    intro s'' l' f' p'
    have hf : s''.file = { s.file with rq := s.file.rq ++ [r] } := by rw [f', f, fs]
    refine ⟨[], ⟨?_, by rw [l']; exact h.loc, ?_, ?_, h.frag⟩, Or.inr ⟨rfl, ?_⟩⟩
    · have et : s''.file.toks = s.file.toks := by rw [hf]; rfl
      have er : s''.file.rq = s.file.rq ++ [r] := by rw [hf]
      unfold Good
      rw [l', h.loc, et, er, List.flatMap_append]
      rw [et] at p'
      simp only [List.flatMap_cons, List.flatMap_nil, List.append_nil]
      permc p'
    · rw [hf]
      exact ⟨h.inv.wq, h.inv.mq, h.inv.idx, h.inv.dids, h.inv.kinds⟩
    · rw [hf]
      intro x hx
      rcases List.mem_append.mp hx with hx | hx
      · exact h.rq x hx
      · rw [List.mem_singleton] at hx
        rw [hx]
        exact ⟨wf, cv (hc hq)⟩
    · unfold ReadDone
      rw [if_neg (by rw [he]; simp), if_pos hq]
      exact ⟨⟨r, hf⟩, rfl⟩
  · intro he hq s' V l q i fr sr g
    refine fin l g ?_
    intro s'' l' f' p'
    have hq' : s''.file.rq = s.file.rq := by rw [f', q, fs]
    refine ⟨V, ⟨?_, by rw [l']; exact h.loc, f' ▸ i, by rw [hq']; exact h.rq, fr.append h.frag⟩, Or.inr ⟨rfl, ?_⟩⟩
    · unfold Good
      rw [hq', l', h.loc]
      permc p'
    · unfold ReadDone
      rw [if_neg (by rw [he]; simp), if_neg (by rw [hq]; simp)]
      refine ⟨hq', ?_⟩
      rw [f', ← fs]
      exact sr

/-- What a flush that succeeds does to the file and loses. -/
def FlushDone (c : Conf) (p : FArgs) (f f' : File) (L : List Kind) : Prop :=
  f'.rq = [] ∧
  if f.rq ≠ [] ∨ p.reads = true then
    ∃ g, Searched c p.env (flushedIf (f.pending || p.more || p.else_) p.more p.else_ f) g L ∧ f' = { g with rq := [] }
  else f' = flushedIf (f.pending || p.more || p.else_) p.more p.else_ f ∧ L = []

theorem flush_own {c : Conf} {p : FArgs} {s : St} {Y : List Tok} (h : Own s Y) : wp (flush c p) s fun o s' => ∃ Z, Own s' (Z ++ Y) ∧
    (o = .ok false ∨ o = .ok true ∧ FlushDone c p s.file s'.file (Z.map (·.kind))) := by
  unfold flush
  refine wp_caught (wp_frame ?_)
  have hl0 : ({ s with loc := [] } : St) = s := by rw [← h.loc]
  rw [hl0]
  have h0 : In s.file.rq (s.file.rq.flatMap RQ.toks ++ Y) [] [] s := ⟨⟨h.good, by rw [h.loc]; rfl⟩, frag_nil, h.inv, rfl⟩
  have c1 : chk [.lib] [.acq .lib, .call] [] [([.lib], [])] = true := by decide
  have hleft : left [Kind.lib] [Kind.lib] = [] := by decide
  have bad : ∀ s', Bad [.lib] s.file.rq (s.file.rq.flatMap RQ.toks ++ Y) s' → ∃ Z ks, At s' Z ks ∧ ∀ s'' W, W.map (·.kind) = left [.lib] ks →
      s''.loc = s.loc → s''.file = s'.file → s''.held.Perm (W ++ (s''.file.toks ++ Z)) →
      ∃ V, Own s'' (V ++ Y) ∧ (Out.ok false = .ok false ∨ Out.ok false = .ok true ∧ FlushDone c p s.file s''.file (V.map (·.kind))) := by
    rintro s' ⟨Z, ks, h1, h2⟩
    refine ⟨_, ks, h1.at_, ?_⟩
    intro s'' W hW hl hf hp
    refine ⟨W ++ Z, ⟨?_, by rw [hl]; exact h.loc, hf ▸ h1.inv, by rw [hf, h1.rq]; exact h.rq, ((frag_kinds hW h2).append h1.frag).append h.frag⟩, Or.inl rfl⟩
    have hq : s''.file.rq = s.file.rq := by rw [hf, h1.rq]
    unfold Good
    rw [hq, hl, h.loc]
    permc hp
  refine wp_bind (h0.run c1 bad ?_)
  intro e' he s1 Z hf1 hZ h1
  simp only [List.mem_singleton] at he
  subst he
  simp only [List.map_eq_nil_iff] at hZ
  subst hZ
  simp only [List.nil_append] at h1
  refine wp_bind (wp_getF ?_)
  show wp _ _ _
  rw [hf1]
  -- the end
  have tail : ∀ s2, In s.file.rq (s.file.rq.flatMap RQ.toks ++ Y) [.lib] [] s2 → s2.file = flushedIf (s.file.pending || p.more || p.else_) p.more p.else_ s.file →
      wp (do
        let f ← getF
        if f.rq ≠ [] ∨ p.reads = true then do
          flushReads c p.env f.rq
          setF fun f => { f with rq := [] }
        else Pure.pure () : M Unit) s2 fun o s' => match o with
        | .ok _ => ∃ Z ks, At s' Z ks ∧ ∀ s'' W, W.map (·.kind) = left [.lib] ks →
          s''.loc = s.loc → s''.file = s'.file → s''.held.Perm (W ++ (s''.file.toks ++ Z)) →
          ∃ V, Own s'' (V ++ Y) ∧ (Out.ok true = .ok false ∨ Out.ok true = .ok true ∧ FlushDone c p s.file s''.file (V.map (·.kind)))
        | .thrown => ∃ Z ks, At s' Z ks ∧ ∀ s'' W, W.map (·.kind) = left [.lib] ks →
          s''.loc = s.loc → s''.file = s'.file → s''.held.Perm (W ++ (s''.file.toks ++ Z)) →
          ∃ V, Own s'' (V ++ Y) ∧ (Out.ok false = .ok false ∨ Out.ok false = .ok true ∧ FlushDone c p s.file s''.file (V.map (·.kind)))
        | .ub => False := by
    intro s2 h2 hf2
    have rq2 : s2.file.rq = s.file.rq := h2.rq
    refine wp_bind (wp_getF ?_)
    show wp _ _ _
    rw [rq2]
    by_cases hr : s.file.rq ≠ [] ∨ p.reads = true
    · rw [if_pos hr]
      refine wp_bind (flushReads_wp (X := Y) ?_ h2.inv (fun r hr => (h.rq r hr).1) ?_ ?_ ?_)
      · simpa using h2.at_.1
      · intro s3 V l q i fr g
        refine ⟨_, [.lib], ⟨g, by rw [l]; exact h2.at_.2⟩, ?_⟩
        intro s'' W hW hl hf hp
        rw [hleft, List.map_eq_nil_iff] at hW
        subst hW
        have hq : s''.file.rq = s.file.rq := by rw [hf, q, rq2]
        refine ⟨V, ⟨?_, by rw [hl]; exact h.loc, hf ▸ i, by rw [hq]; exact h.rq, fr.append h.frag⟩, Or.inl rfl⟩
        unfold Good
        rw [hq, hl, h.loc]
        permc hp
      · rintro ⟨r, hr, hn⟩
        exact absurd (h.rq r hr).2 hn
      · intro s3 V l q i fr sr g
        refine wp_setF ⟨V ++ Y, [.lib], ⟨?_, ?_⟩, ?_⟩
        · exact g
        · simp only []
          rw [l]; exact h2.at_.2
        · intro s'' W hW hl hf hp
          rw [hleft, List.map_eq_nil_iff] at hW
          subst hW
          have hq : s''.file.rq = [] := by rw [hf]
          refine ⟨V, ⟨?_, by rw [hl]; exact h.loc, ?_, by rw [hq]; simp, fr.append h.frag⟩, Or.inr ⟨rfl, ?_⟩⟩
          · unfold Good
            rw [hq, hl, h.loc]
            simpa using hp
          · rw [hf]
            exact ⟨i.wq, i.mq, i.idx, i.dids, i.kinds⟩
          · refine ⟨hq, ?_⟩
            rw [if_pos hr]
            refine ⟨s3.file, ?_, by rw [hf]⟩
            rw [← hf2]
            exact sr
    · rw [if_neg hr]
      refine wp_pure ⟨_, _, h2.at_, ?_⟩
      intro s'' W hW hl hf hp
      rw [hleft, List.map_eq_nil_iff] at hW
      subst hW
      have hq : s''.file.rq = s.file.rq := by rw [hf, rq2]
      refine ⟨[], ⟨?_, by rw [hl]; exact h.loc, hf ▸ h2.inv, by rw [hq]; exact h.rq, h.frag⟩, Or.inr ⟨rfl, ?_⟩⟩
      · unfold Good
        rw [hq, hl, h.loc]
        simpa using hp
      · unfold FlushDone
        rw [if_neg hr, hf, hf2]
        refine ⟨?_, rfl, rfl⟩
        have : s2.file.rq = [] := by
          rw [rq2]
          exact Decidable.not_not.mp (fun hh => hr (Or.inl hh))
        rw [← hf2]
        exact this
  by_cases hb : (s.file.pending || p.more || p.else_) = true
  · rw [if_pos hb]
    refine wp_bind (h1.fn (flushWrites_fn c p.more p.else_) (fin := [.lib]) (by decide) bad ?_)
    rintro _ s2 Z ⟨hL, hf2⟩ h2
    simp only [List.map_eq_nil_iff] at hL
    subst hL
    refine wp_mono (tail s2 h2 ?_) (fun o s' h => by cases o <;> first | exact h | exact h.elim)
    unfold flushedIf
    rw [if_pos hb, hf2, hf1]
  · rw [if_neg hb]
    refine wp_mono (tail s1 h1 ?_) (fun o s' h => by cases o <;> first | exact h | exact h.elim)
    unfold flushedIf
    rw [if_neg hb, hf1]

theorem close_own {c : Conf} {p : FArgs} {s : St} {Y : List Tok} (h : Own s Y) : wp (close c p) s fun o s' =>
    (o = .ok false ∧ ∃ Z, Own s' (Z ++ Y)) ∨
    (o = .ok true ∧ ∃ Z, s'.held.Perm (Z ++ Y) ∧ Frag Z ∧ s'.file = File.opened [] ∧ s'.loc = [] ∧
      (s.file.rq = [] → (∀ m ∈ s.file.mq, 0 < m.n) → Z = [])) := by
  unfold close
  refine wp_caught (wp_frame ?_)
  have hl0 : ({ s with loc := [] } : St) = s := by rw [← h.loc]
  rw [hl0]
  have h0 : In s.file.rq (s.file.rq.flatMap RQ.toks ++ Y) [] [] s := ⟨⟨h.good, by rw [h.loc]; rfl⟩, frag_nil, h.inv, rfl⟩
  have c1 : chk [.lib] [.acq .lib, .call] [] [([.lib], [])] = true := by decide
  have c2 : chk [.lib] [.call, .call, .call, .call] [.lib] [([.lib], [])] = true := by decide
  have c3 : chk [.lib] [.call] [.lib] [([.lib], [])] = true := by decide
  have hleft : left [Kind.lib] [Kind.lib] = [] := by decide
  have bad : ∀ s', Bad [.lib] s.file.rq (s.file.rq.flatMap RQ.toks ++ Y) s' → ∃ Z ks, At s' Z ks ∧ ∀ s'' W, W.map (·.kind) = left [.lib] ks →
      s''.loc = s.loc → s''.file = s'.file → s''.held.Perm (W ++ (s''.file.toks ++ Z)) →
      (Out.ok false = .ok false ∧ ∃ Z, Own s'' (Z ++ Y)) ∨
    (Out.ok false = .ok true ∧ ∃ Z, s''.held.Perm (Z ++ Y) ∧ Frag Z ∧ s''.file = File.opened [] ∧ s''.loc = [] ∧
      (s.file.rq = [] → (∀ m ∈ s.file.mq, 0 < m.n) → Z = [])) := by
    rintro s' ⟨Z, ks, h1, h2⟩
    refine ⟨_, ks, h1.at_, ?_⟩
    intro s'' W hW hl hf hp
    refine Or.inl ⟨rfl, W ++ Z, ⟨?_, by rw [hl]; exact h.loc, hf ▸ h1.inv, by rw [hf, h1.rq]; exact h.rq, ((frag_kinds hW h2).append h1.frag).append h.frag⟩⟩
    have hq : s''.file.rq = s.file.rq := by rw [hf, h1.rq]
    unfold Good
    rw [hq, hl, h.loc]
    permc hp
  refine wp_bind (h0.run c1 bad ?_)
  intro e' he s1 Z hf1 hZ h1
  simp only [List.mem_singleton] at he
  subst he
  simp only [List.map_eq_nil_iff] at hZ
  subst hZ
  simp only [List.nil_append] at h1
  refine wp_bind (h1.fn (flushWrites_fn c p.more p.else_) (fin := [.lib]) (by decide) bad ?_)
  rintro _ s2 Z ⟨hL, hf2⟩ h2
  simp only [List.map_eq_nil_iff] at hL
  subst hL
  simp only [List.nil_append] at h2
  refine wp_bind (h2.fn (metaflush_fn c p.env.n) (fin := [.lib]) (by decide) bad ?_)
  rintro _ s3 Z ⟨hL, hf3⟩ h3
  have w2 : s2.file.wq = [] := by rw [hf2]; rfl
  rw [w2] at hL
  simp only [List.flatMap_nil, List.map_nil, List.map_eq_nil_iff] at hL
  subst hL
  simp only [List.nil_append] at h3
  refine wp_bind (h3.run c2 bad ?_)
  intro e' he s4 Z hf4 hZ h4
  simp only [List.mem_singleton] at he
  subst he
  simp only [List.map_eq_nil_iff] at hZ
  subst hZ
  simp only [List.nil_append] at h4
  refine wp_bind (wp_getF ?_)
  show wp _ _ _
  have k4 : s4.file.keys = [] := by rw [hf4, hf3]; rfl
  have d4 : s4.file.done = [] := by rw [hf4, hf3]; rfl
  have w4 : s4.file.wq = [] := by rw [hf4, hf3]; rfl
  have m4 : s4.file.mq = s.file.mq.filter (fun m => decide (¬ 0 < m.n)) := by rw [hf4, hf3, hf2, hf1]; rfl
  have hh := h4.held
  refine wp_bind (wp_putAll (Z := s4.loc ++ (s4.file.mq.flatMap (fun m => m.w.req :: m.w.bufs) ++ (s.file.rq.flatMap RQ.toks ++ Y))) ?_ ?_)
  · unfold File.toks at hh
    rw [k4, d4, w4] at hh
    simp only [List.flatMap_nil, List.map_nil] at hh
    permc hh
  intro hd hp
  refine wp_bind (wp_setF ?_)
  have h5 : In s.file.rq (s.file.rq.flatMap RQ.toks ++ Y) [.lib] [] { s4 with held := hd, file := { s4.file with idx := [] } } := by
    refine h4.mk' rfl ?_ frag_nil ⟨h4.inv.wq, h4.inv.mq, by simp, h4.inv.dids, h4.inv.kinds⟩ h4.rq
    unfold File.toks
    simp only [k4, d4, w4]
    simp only [List.flatMap_nil, List.map_nil]
    permc hp
  refine wp_bind (h5.run c3 bad ?_)
  intro e' he s6 Z hf6 hZ h6
  simp only [List.mem_singleton] at he
  subst he
  simp only [List.map_eq_nil_iff] at hZ
  subst hZ
  simp only [List.nil_append] at h6
  rw [k4]
  refine wp_bind (wp_pure ?_)
  have hh6 := h6.held
  refine wp_setF ⟨s4.file.mq.flatMap (fun m => m.w.req :: m.w.bufs) ++ (s.file.rq.flatMap RQ.toks ++ Y), [.lib], ⟨?_, h6.at_.2⟩, ?_⟩
  · unfold Good
    rw [hf6] at hh6
    unfold File.toks at hh6 ⊢
    simp only [k4, d4, w4] at hh6
    simp only [List.flatMap_nil, List.map_nil] at hh6 ⊢
    permc hh6
  · intro s'' W hW hl hf hp
    rw [hleft, List.map_eq_nil_iff] at hW
    subst hW
    refine Or.inr ⟨rfl, s4.file.mq.flatMap (fun m => m.w.req :: m.w.bufs) ++ s.file.rq.flatMap RQ.toks, ?_, ?_, by rw [hf]; rfl,
      by rw [hl]; exact h.loc, ?_⟩
    · rw [hf] at hp
      unfold File.toks at hp
      simp only [List.flatMap_nil, List.map_nil] at hp
      permc hp
    · refine Frag.append ?_ ?_
      · intro t ht
        obtain ⟨m, hm, ht⟩ := List.mem_flatMap.mp ht
        obtain ⟨i1, i2⟩ := h4.inv.mq m hm
        rcases List.mem_cons.mp ht with rfl | ht
        · exact i1
        · rw [i2 t ht]; rfl
      · intro t ht
        obtain ⟨r, hr, ht⟩ := List.mem_flatMap.mp ht
        exact (h.rq r hr).1.frag t ht
    · intro hr hm
      rw [hr, m4]
      have : s.file.mq.filter (fun m => decide (¬ 0 < m.n)) = [] := by
        rw [List.filter_eq_nil_iff]
        intro m hm'
        have := hm m hm'
        simp
        omega
      rw [this]
      rfl

end Verif.Held
