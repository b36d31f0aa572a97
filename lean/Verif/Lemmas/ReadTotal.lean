import Verif.Lemmas.ReadVal
import Verif.Lemmas.View

namespace Verif

open Spec (AW inBox InBlk NoCommon Layout ReadOK Stepped Comparable EndsLe Ends Alike Viewable Once Repeats RowLt Separate)

/-- Comparable requested blocks stay in order after intersection with a written block. -/
theorem stepped_intersect : ∀ {s c a ca b cb os oc os' oc' : List Nat},
    Stepped a ca b cb → s.length = c.length → a.length = s.length →
    intersect s c a ca = some (os, oc) → intersect s c b cb = some (os', oc') →
    lexLt (subs os s) (subs os' s) = true ∧
      lexLt (lastPos (subs os s) oc) (lastPos (subs os' s) oc') = true
  | s :: ss, c :: cs, a :: as, ca :: cas, b :: bs, cb :: cbs, os, oc, os', oc', hst, hl, ha, h1, h2 => by
    simp only [List.length_cons, Nat.add_right_cancel_iff] at hl ha
    simp only [intersect] at h1 h2
    split at h1
    · simp at h1
    · rename_i n1
      split at h2
      · simp at h2
      · rename_i n2
        rw [Option.map_eq_some_iff] at h1 h2
        obtain ⟨⟨p1, p2⟩, g1, e1⟩ := h1
        obtain ⟨⟨q1, q2⟩, g2, e2⟩ := h2
        simp only [Prod.mk.injEq] at e1 e2
        obtain ⟨rfl, rfl⟩ := e1
        obtain ⟨rfl, rfl⟩ := e2
        simp only [subs, lastPos, List.zipWith_cons_cons, lexLt]
        rcases hst with hst | ⟨rfl, rfl, hst⟩
        · rw [if_pos (by omega), if_pos (by omega)]
          exact ⟨rfl, rfl⟩
        · have := stepped_intersect hst hl ha g1 g2
          simp only [subs, lastPos] at this
          rw [if_neg (by omega), if_neg (by omega), if_neg (by omega), if_neg (by omega)]
          exact this
  | _, _, [], _, _, _, _, _, _, _, h, _, _, _, _ => by simp [Stepped] at h
  | _, _, _ :: _, [], _, _, _, _, _, _, h, _, _, _, _ => by simp [Stepped] at h
  | _, _, _ :: _, _ :: _, [], _, _, _, _, _, h, _, _, _, _ => by simp [Stepped] at h
  | _, _, _ :: _, _ :: _, _ :: _, [], _, _, _, _, h, _, _, _, _ => by simp [Stepped] at h
  | [], _, _ :: _, _ :: _, _ :: _, _ :: _, _, _, _, _, _, _, h, _, _ => by simp at h
  | _ :: _, [], _ :: _, _ :: _, _ :: _, _ :: _, _, _, _, _, _, h, _, _, _ => by simp at h

theorem inBox_ends : ∀ {s c a ca os oc : List Nat}, s.length = c.length → a.length = s.length →
    ca.length = s.length → intersect s c a ca = some (os, oc) →
    inBox a ca os = true ∧ inBox a ca (lastPos os oc) = true
  | [], [], [], [], os, oc, _, _, _, h => by
    simp only [intersect, Option.some.injEq, Prod.mk.injEq] at h
    obtain ⟨rfl, rfl⟩ := h
    simp [inBox, lastPos]
  | s :: ss, c :: cs, a :: as, ca :: cas, os, oc, h1, h2, h3, h => by
    simp only [List.length_cons, Nat.add_right_cancel_iff] at h1 h2 h3
    simp only [intersect] at h
    split at h
    · simp at h
    · rw [Option.map_eq_some_iff] at h
      obtain ⟨⟨p1, p2⟩, g, e⟩ := h
      simp only [Prod.mk.injEq] at e
      obtain ⟨rfl, rfl⟩ := e
      obtain ⟨i1, i2⟩ := inBox_ends h1 h2 h3 g
      simp only [inBox, lastPos, List.zipWith_cons_cons] at *
      rw [i1, i2]
      simp only [Bool.and_true, Bool.and_eq_true, decide_eq_true_eq]
      omega
  | [], _ :: _, _, _, _, _, h, _, _, _ => by simp at h
  | _ :: _, [], _, _, _, _, h, _, _, _ => by simp at h
  | [], [], _ :: _, _, _, _, _, h, _, _ => by simp at h
  | [], [], [], _ :: _, _, _, _, _, h, _ => by simp at h
  | _ :: _, _ :: _, [], _, _, _, _, h, _, _ => by simp at h
  | _ :: _, _ :: _, _ :: _, [], _, _, _, _, h, _ => by simp at h

/-- Cells in row-major order keep their order relative to the origin of a written block. -/
theorem lexLt_rel : ∀ {s c a ca b cb os oc os' oc' : List Nat},
    intersect s c a ca = some (os, oc) → intersect s c b cb = some (os', oc') →
    RowLt (lastPos os oc) os' → lexLt (lastPos (subs os s) oc) (subs os' s) = true
  | s :: ss, c :: cs, a :: as, ca :: cas, b :: bs, cb :: cbs, os, oc, os', oc', h1, h2, hr => by
    simp only [intersect] at h1 h2
    split at h1
    · simp at h1
    · split at h2
      · simp at h2
      · rw [Option.map_eq_some_iff] at h1 h2
        obtain ⟨⟨p1, p2⟩, g1, e1⟩ := h1
        obtain ⟨⟨q1, q2⟩, g2, e2⟩ := h2
        simp only [Prod.mk.injEq] at e1 e2
        obtain ⟨rfl, rfl⟩ := e1
        obtain ⟨rfl, rfl⟩ := e2
        simp only [subs, lastPos, List.zipWith_cons_cons, lexLt, RowLt] at hr ⊢
        rcases hr with hr | ⟨hr, hr'⟩
        · rw [if_pos (by omega)]
        · rw [if_neg (by omega), if_neg (by omega)]
          have := lexLt_rel g1 g2 hr'
          simpa only [subs, lastPos] using this
  | [], _, _, _, _, _, os, oc, os', oc', h1, h2, hr => by
    simp only [intersect, Option.some.injEq, Prod.mk.injEq] at h1
    obtain ⟨rfl, rfl⟩ := h1
    simp [lastPos, RowLt] at hr
  | _ :: _, [], _, _, _, _, os, oc, os', oc', h1, h2, hr => by
    simp only [intersect, Option.some.injEq, Prod.mk.injEq] at h1
    obtain ⟨rfl, rfl⟩ := h1
    simp [lastPos, RowLt] at hr
  | _ :: _, _ :: _, [], _, _, _, os, oc, os', oc', h1, h2, hr => by
    simp only [intersect, Option.some.injEq, Prod.mk.injEq] at h1
    obtain ⟨rfl, rfl⟩ := h1
    simp [lastPos, RowLt] at hr
  | _ :: _, _ :: _, _ :: _, [], _, _, os, oc, os', oc', h1, h2, hr => by
    simp only [intersect, Option.some.injEq, Prod.mk.injEq] at h1
    obtain ⟨rfl, rfl⟩ := h1
    simp [lastPos, RowLt] at hr
  | _ :: _, _ :: _, _ :: _, _ :: _, [], _, os, oc, os', oc', h1, h2, hr => by
    simp only [intersect, Option.some.injEq, Prod.mk.injEq] at h2
    obtain ⟨rfl, rfl⟩ := h2
    unfold RowLt at hr
    split at hr <;> simp_all
  | _ :: _, _ :: _, _ :: _, _ :: _, _ :: _, [], os, oc, os', oc', h1, h2, hr => by
    simp only [intersect, Option.some.injEq, Prod.mk.injEq] at h2
    obtain ⟨rfl, rfl⟩ := h2
    unfold RowLt at hr
    split at hr <;> simp_all

section
variable {ls : List (AW × Int)} {qs : List RReq}

theorem From.hitFile (hl : Layout ls) (ok : ReadOK ls qs) {h q p x s} (f : From ls qs h q p x s) :
    HitFile h ∧ subarrayOK h.msize h.count h.mstart = true := by
  have ft := f.fit ok
  obtain ⟨os, oc, hi, h1, h2, h3, h4, h5, h6, h7, h8⟩ := mem_hitOf f.mem
  obtain ⟨i1, i2, _, i4, i5, _⟩ := intersect_some (by rw [ft.s0, ft.s1]) (by rw [ft.s0, ft.r0])
    (by rw [ft.s0, ft.r1]) hi
  refine ⟨⟨⟨?_, ?_, ?_⟩, ?_, ?_⟩, ?_⟩
  · rw [h6, h2, i2, ft.s0, ft.s1]
  · rw [h3, h2, subs_length i1, i1, ft.s0, ft.s1]
  · rw [h2, h6, h3]; exact i4
  · rw [h1]; exact ok.es q f.hq
  · unfold Hit.key
    rw [h8, h7]
    have := hl.lo x f.hx
    omega
  · rw [h4, h6, h5]; exact i5

theorem From.apart (hl : Layout ls) (ok : ReadOK ls qs) {h q p x s h' q' p' x' s'}
    (f : From ls qs h q p x s) (f' : From ls qs h' q' p' x' s') (hk : h.key < h'.key) :
    h.key + (h.d.esize * prod h.dsize : Nat) ≤ h'.key := by
  have e := (ok.dset x f.hx q f.hq f.hd).2
  have e' := (ok.dset x' f'.hx q' f'.hq f'.hd).2
  have k := key_hitOf (f.fit ok) f.mem
  have k' := key_hitOf (f'.fit ok) f'.mem
  obtain ⟨os, oc, _, h1, h2, _⟩ := mem_hitOf f.mem
  rw [h1, h2, ← e]
  have z' := Nat.mul_pos (ok.es q' f'.hq) (hitOf_size (f'.fit ok) f'.mem)
  rw [← e'] at z'
  by_contra hlt
  obtain ⟨rfl, rfl⟩ := file_unique hl f.hx f'.hx f.hs f'.hs (f := h'.key) (by omega) (by omega) (by omega) (by omega)
  omega

theorem separate_symm {a b : Blk} (h : Separate a b) : Separate b a := by
  rcases h with h | h
  · exact Or.inr (fun x y hx hy => h y x hy hx)
  · exact Or.inl (fun x y hx hy => h y x hy hx)

theorem comparable_symm {a b : Blk} (h : Comparable a b) : Comparable b a := by
  rcases h with h | h | h
  · exact Or.inr (Or.inl h)
  · exact Or.inl h
  · exact Or.inr (Or.inr (separate_symm h))

theorem endsLe_nil : ∀ {s c s' c' : List Nat}, EndsLe s c s' c' → (c = [] ↔ c' = [])
  | _ :: _, _ :: _, _ :: _, _ :: _, _ => by simp
  | [], [], [], [], _ => by simp

theorem alike_symm {a b : Blk} (h : Alike a b) : Alike b a := by
  rcases h with ⟨h, h' | h'⟩ | h
  · exact Or.inl ⟨fun e => h ((endsLe_nil h').mpr e), Or.inr h'⟩
  · exact Or.inl ⟨fun e => h ((endsLe_nil h').mp e), Or.inl h'⟩
  · exact Or.inr (comparable_symm h)

/-- Ends stay in order after intersection with a written block. -/
theorem endsLe_intersect : ∀ {s c a ca b cb os oc os' oc' : List Nat}, EndsLe a ca b cb →
    intersect s c a ca = some (os, oc) → intersect s c b cb = some (os', oc') →
    endGt (subs os s) oc (subs os' s) oc' = false
  | s :: ss, c :: cs, a :: as, ca :: cas, b :: bs, cb :: cbs, os, oc, os', oc', he, h1, h2 => by
    simp only [intersect] at h1 h2
    split at h1
    · simp at h1
    · split at h2
      · simp at h2
      · rw [Option.map_eq_some_iff] at h1 h2
        obtain ⟨⟨p1, p2⟩, g1, e1⟩ := h1
        obtain ⟨⟨q1, q2⟩, g2, e2⟩ := h2
        simp only [Prod.mk.injEq] at e1 e2
        obtain ⟨rfl, rfl⟩ := e1
        obtain ⟨rfl, rfl⟩ := e2
        obtain ⟨e1, e2⟩ := he
        have := endsLe_intersect e2 g1 g2
        simp only [subs, List.zipWith_cons_cons, endGt] at this ⊢
        rw [if_neg (by omega)]
        exact this
  | [], _, _, _, _, _, os, oc, os', oc', _, h1, h2 => by
    simp only [intersect, Option.some.injEq, Prod.mk.injEq] at h1
    obtain ⟨rfl, rfl⟩ := h1
    simp [subs, endGt]
  | _ :: _, [], _, _, _, _, os, oc, os', oc', _, h1, h2 => by
    simp only [intersect, Option.some.injEq, Prod.mk.injEq] at h1
    obtain ⟨rfl, rfl⟩ := h1
    simp [subs, endGt]
  | _ :: _, _ :: _, [], [], [], [], os, oc, os', oc', _, h1, h2 => by
    simp only [intersect, Option.some.injEq, Prod.mk.injEq] at h1
    obtain ⟨rfl, rfl⟩ := h1
    simp [subs, endGt]

/-- Two results in the same data block come from comparable or equal blocks unless they are the same. -/
theorem From.comparable (v : Viewable qs) {h q p x s h' q' p' x'  s'}
    (f : From ls qs h q p x s) (f' : From ls qs h' q' p' x' s') (hxx : x = x') :
    (q = q' ∧ p = p') ∨ Alike p.1 p'.1 := by
  have hdd : q.did = q'.did := by rw [← f.hd, hxx, f'.hd]
  rcases pairwise_mem v.step2 f.hq f'.hq with rfl | hh | hh
  · have hw : (withOffs q.d.esize 0 q.bs).Pairwise (fun p p' => Alike p.1 p'.1) := by
      rw [withOffs_eq]
      apply pairwise_mapIdx
      intro i j hi hj hij
      exact List.pairwise_iff_getElem.mp (v.step q f.hq) i j hi hj hij
    rcases pairwise_mem hw f.hp f'.hp with h | h | h
    · exact Or.inl ⟨rfl, h⟩
    · exact Or.inr h
    · exact Or.inr (alike_symm h)
  · exact Or.inr (hh hdd _ (withOffs_mem f.hp) _ (withOffs_mem f'.hp))
  · exact Or.inr (alike_symm (hh hdd.symm _ (withOffs_mem f'.hp) _ (withOffs_mem f.hp)))

/-- Two results in the same data block come from separate blocks unless they are the same. -/
theorem From.separate (v1 : ∀ q ∈ qs, q.bs.Pairwise Separate)
    (v2 : qs.Pairwise (fun q q' => q.did = q'.did → ∀ b ∈ q.bs, ∀ b' ∈ q'.bs, Separate b b'))
    {h q p x s h' q' p' x'  s'}
    (f : From ls qs h q p x s) (f' : From ls qs h' q' p' x' s') (hxx : x = x') :
    (q = q' ∧ p = p') ∨ Separate p.1 p'.1 := by
  have hdd : q.did = q'.did := by rw [← f.hd, hxx, f'.hd]
  rcases pairwise_mem v2 f.hq f'.hq with rfl | hh | hh
  · have hw : (withOffs q.d.esize 0 q.bs).Pairwise (fun p p' => Separate p.1 p'.1) := by
      rw [withOffs_eq]
      apply pairwise_mapIdx
      intro i j hi hj hij
      exact List.pairwise_iff_getElem.mp (v1 q f.hq) i j hi hj hij
    rcases pairwise_mem hw f.hp f'.hp with h | h | h
    · exact Or.inl ⟨rfl, h⟩
    · exact Or.inr h
    · exact Or.inr (separate_symm h)
  · exact Or.inr (hh hdd _ (withOffs_mem f.hp) _ (withOffs_mem f'.hp))
  · exact Or.inr (separate_symm (hh hdd.symm _ (withOffs_mem f'.hp) _ (withOffs_mem f.hp)))

theorem eq_of_hitOf {q : RReq} {rb : Blk} {soff : Nat} {foff fsize : Int} {s : MSel} {a b : Hit}
    (ha : a ∈ hitOf q rb soff foff fsize s) (hb : b ∈ hitOf q rb soff foff fsize s) : a = b := by
  unfold hitOf at ha hb
  cases hi : intersect s.start s.count rb.start rb.count with
  | none => simp [hi] at ha
  | some o =>
    obtain ⟨os, oc⟩ := o
    simp only [hi, List.mem_singleton] at ha hb
    rw [ha, hb]

theorem stepped_order (hl : Layout ls) (ok : ReadOK ls qs) {h q p x s h' q' p'}
    (f : From ls qs h q p x s) (f' : From ls qs h' q' p' x s)
    (hst : Stepped p.1.start p.1.count p'.1.start p'.1.count) :
    lexLt h.dstart h'.dstart = true ∧ h.fst < h'.fst ∧ h.lst < h'.lst := by
  have ft := f.fit ok
  obtain ⟨os, oc, hi, h1, h2, h3, h4, h5, h6, h7, h8⟩ := mem_hitOf f.mem
  obtain ⟨os', oc', hi', h1', h2', h3', h4', h5', h6', h7', h8'⟩ := mem_hitOf f'.mem
  have := stepped_intersect hst (by rw [ft.s0, ft.s1]) (by rw [ft.s0, ft.r0]) hi hi'
  have g := (f.hitFile hl ok).1.sub
  have g' := (f'.hitFile hl ok).1.sub
  rw [← h3, ← h3', ← h6, ← h6'] at this
  have hds : h'.dsize = h.dsize := by rw [h2, h2']
  rw [hds] at g'
  refine ⟨this.1, ?_, ?_⟩
  · unfold Hit.fst
    rw [hds]
    exact lin_lex g.first g'.first this.1
  · unfold Hit.lst
    rw [hds]
    exact lin_lex g.last g'.last this.2

theorem separate_order (hl : Layout ls) (ok : ReadOK ls qs) {h q p x s h' q' p'}
    (f : From ls qs h q p x s) (f' : From ls qs h' q' p' x s)
    (hst : ∀ c c', InBlk p.1 c → InBlk p'.1 c' → RowLt c c') :
    lexLt (lastPos h.dstart h.count) h'.dstart = true ∧ h.lst < h'.fst ∧ h.fst ≤ h.lst ∧ h'.fst ≤ h'.lst := by
  have ft := f.fit ok
  have ft' := f'.fit ok
  obtain ⟨os, oc, hi, h1, h2, h3, h4, h5, h6, h7, h8⟩ := mem_hitOf f.mem
  obtain ⟨os', oc', hi', h1', h2', h3', h4', h5', h6', h7', h8'⟩ := mem_hitOf f'.mem
  have b := (inBox_ends (by rw [ft.s0, ft.s1]) (by rw [ft.s0, ft.r0]) (by rw [ft.s0, ft.r1]) hi).2
  have b' := (inBox_ends (by rw [ft'.s0, ft'.s1]) (by rw [ft'.s0, ft'.r0]) (by rw [ft'.s0, ft'.r1]) hi').1
  have hlt := lexLt_rel hi hi' (hst _ _ b b')
  have g := (f.hitFile hl ok).1.sub
  have g' := (f'.hitFile hl ok).1.sub
  rw [← h3, ← h3', ← h6] at hlt
  have hds : h'.dsize = h.dsize := by rw [h2, h2']
  have key : ∀ {k : Hit}, SubOK k.dsize k.count k.dstart → k.fst ≤ k.lst := by
    intro k hk
    have := lin_not_lex hk.first hk.last
    unfold Hit.fst Hit.lst
    apply this
    have hall : ∀ {n c s : List Nat}, SubOK n c s → lexLt (lastPos s c) s = false := by
      intro n
      induction n with
      | nil =>
        intro c s hh
        have := hh.ls
        have := hh.lc
        cases s <;> simp_all [lastPos, lexLt]
      | cons n ns ih =>
        intro c s hh
        have l1 := hh.ls
        have l2 := hh.lc
        match c, s, l1, l2 with
        | c :: cs, s :: ss, _, _ =>
          obtain ⟨k1, k2, k3⟩ := hh.tail
          simp only [lastPos, List.zipWith_cons_cons, lexLt]
          rw [if_neg (by omega)]
          split
          · rfl
          · exact ih k3
    exact hall hk
  refine ⟨hlt, ?_, key g, key g'⟩
  rw [hds] at g'
  unfold Hit.lst Hit.fst
  rw [hds]
  exact lin_lex g.last g'.first hlt

theorem From.inOrder (hl : Layout ls) (ok : ReadOK ls qs) (v : Viewable qs) {h q p x s h' q' p' x' s'}
    (f : From ls qs h q p x s) (f' : From ls qs h' q' p' x' s') (hs : hitLt h' h = false) :
    InOrder h h' := by
  have hk := le_of_hitLt hs
  rcases Int.lt_or_eq_of_le hk with hk | hk
  · exact Or.inl (f.apart hl ok f' hk)
  · right
    obtain ⟨rfl, rfl⟩ := f.same hl ok f' hk
    have e := (ok.dset x f.hx q f.hq f.hd).2
    have e' := (ok.dset x f'.hx q' f'.hq f'.hd).2
    obtain ⟨os, oc, hi, h1, h2, h3, h4, h5, h6, h7, h8⟩ := mem_hitOf f.mem
    obtain ⟨os', oc', hi', h1', h2', h3', h4', h5', h6', h7', h8'⟩ := mem_hitOf f'.mem
    refine ⟨by rw [h8, h8'], by rw [h7, h7'], by rw [h2, h2'], by rw [h1, h1', ← e, ← e'], ?_⟩
    have hds : h'.dsize = h.dsize := by rw [h2, h2']
    rcases f.comparable v f' rfl with ⟨rfl, rfl⟩ | ⟨_, hc⟩ | hc | hc | hc | hc
    · rw [eq_of_hitOf f.mem f'.mem]
      exact ⟨Nat.le_refl _, fun _ => Nat.le_refl _⟩
    · have g := (f.hitFile hl ok).1.sub
      have g' := (f'.hitFile hl ok).1.sub
      rw [hds] at g'
      refine ⟨?_, ?_⟩
      · unfold hitLt at hs
        rw [if_neg (by omega), if_neg (by omega)] at hs
        have := lin_not_lex g.first g'.first hs
        unfold Hit.fst
        rw [hds]
        exact this
      · intro hgt
        unfold hitGt at hgt
        rw [h3, h3', h6, h6'] at hgt
        rcases hc with hc | hc
        · have := endsLe_intersect hc hi hi'
          rw [← h3, ← h3', ← h6, ← h6'] at this
          have := endGt_false g g' this
          unfold Hit.lst
          rw [hds]
          exact this
        · rw [endsLe_intersect hc hi' hi] at hgt
          simp at hgt
    · obtain ⟨_, a, b⟩ := stepped_order hl ok f f' hc
      exact ⟨Nat.le_of_lt a, fun _ => Nat.le_of_lt b⟩
    · obtain ⟨a, _⟩ := stepped_order hl ok f' f hc
      exfalso
      unfold hitLt at hs
      rw [if_neg (by omega), if_neg (by omega), a] at hs
      simp at hs
    · obtain ⟨_, a, b, c⟩ := separate_order hl ok f f' hc
      exact ⟨by omega, fun _ => by omega⟩
    · obtain ⟨_, a, b, c⟩ := separate_order hl ok f' f (fun c c' h1 h2 => hc c' c h2 h1)
      exfalso
      have g := (f.hitFile hl ok).1.sub
      have g' := (f'.hitFile hl ok).1.sub
      have hds : h'.dsize = h.dsize := by rw [h2, h2']
      rw [hds] at g'
      unfold hitLt at hs
      rw [if_neg (by omega), if_neg (by omega)] at hs
      have := lin_not_lex g.first g'.first hs
      unfold Hit.fst Hit.lst at a b c
      rw [hds] at a b
      omega

theorem hitPairs_ne {h : Hit} (hp : HitPos h) : hitPairs h ≠ [] := by
  have hb : boxIdx h.count ≠ [] := by
    have : ∀ {c : List Nat}, (∀ n ∈ c, 0 < n) → boxIdx c ≠ [] := by
      intro c
      induction c with
      | nil => simp [boxIdx]
      | cons n c ih =>
        intro hc
        have h0 := hc n (by simp)
        have h1 := ih (fun m hm => hc m (by simp [hm]))
        obtain ⟨y, hy⟩ := List.exists_mem_of_ne_nil _ h1
        apply List.ne_nil_of_mem (a := 0 :: y)
        simp only [boxIdx, List.mem_flatMap, List.mem_range, List.mem_map]
        exact ⟨0, h0, y, hy, rfl⟩
    exact this hp.ct
  obtain ⟨y, hy⟩ := List.exists_mem_of_ne_nil _ hb
  unfold hitPairs
  intro he
  rw [List.flatMap_eq_nil_iff] at he
  have := he y hy
  unfold elemPairs at this
  rw [List.map_eq_nil_iff, List.range_eq_nil] at this
  have := hp.es
  omega

theorem hits_nodup (hl : Layout ls) (ok : ReadOK ls qs) : (qs.flatMap (fun q => hitsReq q ls)).Nodup := by
  rw [List.nodup_iff_sublist]
  intro h hs
  have hh : h ∈ qs.flatMap (fun q => hitsReq q ls) := hs.subset (by simp)
  obtain ⟨u, hu⟩ := List.exists_mem_of_ne_nil _ (hitPairs_ne (hits_shape ok hh).2)
  have hc : covers u.2 h = true := by
    unfold covers
    simp only [Bool.not_eq_true', List.isEmpty_eq_false_iff_exists_mem]
    exact ⟨u, mem_atAddr.mpr ⟨hu, rfl⟩⟩
  have h2 := hs.filter (covers u.2)
  rw [List.filter_cons_of_pos hc, List.filter_cons_of_pos hc, List.filter_nil] at h2
  have := (covers_sorted hl ok u.2).sublist h2
  rw [List.pairwise_cons] at this
  have := this.1 h (by simp)
  omega

/-- Reading succeeds for viewable requests. -/
theorem read_total (hl : Layout ls) (ok : ReadOK ls qs) (v : Viewable qs) (disk mem : Mem)
    {raw hs : List Hit} (hr : raw.map Hit.noX = qs.flatMap (fun q => hitsReq q ls))
    (hsort : SortedHits raw hs) : ∃ mem', readHits disk hs mem = .ok mem' := by
  have hperm : (hs.map Hit.noX).Perm (qs.flatMap (fun q => hitsReq q ls)) := by
    rw [← hr]; exact hsort.1.map _
  have hmem : ∀ x ∈ hs, x.noX ∈ qs.flatMap (fun q => hitsReq q ls) :=
    fun x hx => hperm.mem_iff.mp (List.mem_map_of_mem hx)
  have hnd : (hs.map Hit.noX).Nodup := hperm.nodup_iff.mpr (hits_nodup hl ok)
  apply readHits_ok
  · intro x hx
    have := (hits_shape ok (hmem x hx)).1
    exact ⟨this.nd, this.ds, this.ms, this.dz, this.mz⟩
  · intro x hx
    have := (hits_shape ok (hmem x hx)).2
    exact ⟨this.es, this.ct⟩
  · intro x hx
    obtain ⟨q, p, y, s, f⟩ := exists_from (hmem x hx)
    have := (f.hitFile hl ok).1
    exact ⟨this.sub, this.es, this.lo⟩
  · intro x hx
    obtain ⟨q, p, y, s, f⟩ := exists_from (hmem x hx)
    exact (f.hitFile hl ok).2
  · intro g hg hlen h hh
    have hsub : g.Sublist hs := by
      have := sublist_flatten hg
      rwa [groups_flatten] at this
    -- another result in the same group
    obtain ⟨h', hh', hne⟩ : ∃ h' ∈ g, h'.noX ≠ h.noX := by
      have hn2 : (g.map Hit.noX).Nodup := hnd.sublist (hsub.map _)
      match g, hlen, hn2 with
      | a :: b :: r, _, hn2 =>
        simp only [List.map_cons, List.nodup_cons, List.mem_cons] at hn2
        by_cases hah : a.noX = h.noX
        · refine ⟨b, by simp, ?_⟩
          intro hbh
          exact hn2.1 (Or.inl (hah.trans hbh.symm))
        · exact ⟨a, by simp, hah⟩
    have hsame := groups_same g hg h hh h' hh'
    obtain ⟨q, p, x, s, f⟩ := exists_from (hmem h (hsub.subset hh))
    obtain ⟨q', p', x', s', f'⟩ := exists_from (hmem h' (hsub.subset hh'))
    have hk : h.noX.key = h'.noX.key := by
      unfold Hit.key Hit.noX
      simp only
      rw [hsame.1, hsame.2]
    obtain ⟨rfl, rfl⟩ := f.same hl ok f' hk
    rcases f.comparable v f' rfl with ⟨rfl, rfl⟩ | hc
    · exact absurd (eq_of_hitOf f'.mem f.mem) hne
    · rcases v.rows with hrow | hsep
      · have ft := f.fit ok
        obtain ⟨os, oc, hi, h1, h2, h3, h4, h5, h6, h7, h8⟩ := mem_hitOf f.mem
        obtain ⟨i1, i2, _, _, i5, _⟩ := intersect_some (by rw [ft.s0, ft.s1]) (by rw [ft.s0, ft.r0])
          (by rw [ft.s0, ft.r1]) hi
        have hne0 : p.1.count ≠ [] := by
          intro h0
          unfold Alike Comparable at hc
          rcases hc with hc | hc | hc | hc
          · exact hc.1 h0
          · unfold Stepped at hc
            split at hc <;> simp_all
          · unfold Stepped at hc
            split at hc <;> simp_all
          · have ft' := f'.fit ok
            have n0 : q.d.ndim = 0 := by rw [← ft.r1, h0]; rfl
            have n1 : q'.d.ndim = 0 := by rw [← ft'.s0, ft.s0, n0]
            have a1 : p.1.start = [] := List.length_eq_zero_iff.mp (by rw [ft.r0, n0])
            have a2 : p'.1.start = [] := List.length_eq_zero_iff.mp (by rw [ft'.r0, n1])
            have a3 : p'.1.count = [] := List.length_eq_zero_iff.mp (by rw [ft'.r1, n1])
            have b1 : InBlk p.1 [] := by unfold InBlk; rw [a1, h0]; rfl
            have b2 : InBlk p'.1 [] := by unfold InBlk; rw [a2, a3]; rfl
            rcases hc with hc | hc
            · exact hc [] [] b1 b2
            · exact hc [] [] b1 b2
        have hlast : ∀ {c oc ds : List Nat}, oc.length = c.length → ds.length = c.length →
            subarrayOK c oc ds = true → c ≠ [] → ∃ n m, oc.getLast? = some n ∧ c.getLast? = some m ∧ n ≤ m := by
          intro c
          induction c with
          | nil => intro oc ds _ _ _ h; exact absurd rfl h
          | cons c cs ih =>
            intro oc ds l1 l2 hs _
            cases oc with
            | nil => simp at l1
            | cons o os =>
              cases ds with
              | nil => simp at l2
              | cons d ds =>
                simp only [List.length_cons, Nat.add_right_cancel_iff] at l1 l2
                simp only [subarrayOK, Bool.and_eq_true, decide_eq_true_eq] at hs
                cases cs with
                | nil =>
                  have := List.length_eq_zero_iff.mp l1
                  subst this
                  exact ⟨o, c, rfl, rfl, by omega⟩
                | cons c2 cs2 =>
                  obtain ⟨n, m, a1, a2, a3⟩ := ih l1 l2 hs.2 (by simp)
                  cases os with
                  | nil => simp at l1
                  | cons o2 os2 =>
                    exact ⟨n, m, by rw [List.getLast?_cons_cons]; exact a1,
                      by rw [List.getLast?_cons_cons]; exact a2, a3⟩
        obtain ⟨n, m, a1, a2, a3⟩ := hlast (by rw [i2, ft.s0, ft.r1])
          (by rw [subs_length (by rw [i1, ft.s0, ft.r0]), i1, ft.s0, ft.r1]) i5 hne0
        have hm := hrow q f.hq p.1 (withOffs_mem f.hp) m a2
        refine ⟨n, ?_, ?_⟩
        · have : h.count = oc := h6
          rw [this]; exact a1
        · have : h.d = q.d := h1
          rw [this]
          exact Nat.lt_of_le_of_lt (Nat.mul_le_mul_right _ a3) hm
      · exfalso
        have hsing : hs.Pairwise (fun a b => (decide (a.foff = b.foff) && decide (a.doff = b.doff) &&
            interleve a.dstart a.count b.dstart) = false) := by
          have hpn : hs.Pairwise (fun a b => a.noX ≠ b.noX) := by
            have := hnd
            unfold List.Nodup at this
            rwa [List.pairwise_map] at this
          refine (List.Pairwise.and_mem.mp (hsort.2.and hpn)).imp ?_
          rintro a b ⟨ha, hb, hab, hne⟩
          by_cases hfo : a.foff = b.foff ∧ a.doff = b.doff
          · obtain ⟨q1, p1, x1, s1, f1⟩ := exists_from (hmem a ha)
            obtain ⟨q2, p2, x2, s2, f2⟩ := exists_from (hmem b hb)
            have hk : a.noX.key = b.noX.key := by
              unfold Hit.key Hit.noX
              simp only
              rw [hfo.1, hfo.2]
            obtain ⟨rfl, rfl⟩ := f1.same hl ok f2 hk
            have hpos : ∀ n ∈ a.count, 0 < n := (hits_shape ok (hmem a ha)).2.ct
            rcases f1.separate hsep.1 hsep.2 f2 rfl with ⟨rfl, rfl⟩ | hc | hc
            · exact absurd (eq_of_hitOf f1.mem f2.mem) hne
            · obtain ⟨hlt, _⟩ := separate_order hl ok f1 f2 hc
              rw [show interleve a.dstart a.count b.dstart = false from interleve_of_lex hpos hlt]
              simp
            · exfalso
              obtain ⟨_, c1, c2, c3⟩ := separate_order hl ok f2 f1 (fun c c' h1 h2 => hc c' c h2 h1)
              have g := (f1.hitFile hl ok).1.sub
              have g' := (f2.hitFile hl ok).1.sub
              obtain ⟨_, _, _, _, e2, _⟩ := mem_hitOf f1.mem
              obtain ⟨_, _, _, _, e2', _⟩ := mem_hitOf f2.mem
              have hds : b.noX.dsize = a.noX.dsize := by rw [e2, e2']
              rw [hds] at g'
              have hab' : hitLt b.noX a.noX = false := hab
              unfold hitLt at hab'
              rw [if_neg (by omega), if_neg (by omega)] at hab'
              have := lin_not_lex g.first g'.first hab'
              unfold Hit.fst Hit.lst at c1 c2
              rw [hds] at c1 c2
              omega
          · simp only [Bool.and_eq_false_iff, decide_eq_false_iff_not]
            left
            rw [not_and_or] at hfo
            exact hfo
        have := groups_single hsing g hg
        omega
  · have := hsort.2
    refine (List.Pairwise.and_mem.mp this).imp ?_
    rintro a b ⟨ha, hb, hab⟩
    obtain ⟨q, p, x, s, f⟩ := exists_from (hmem a ha)
    obtain ⟨q', p', x', s', f'⟩ := exists_from (hmem b hb)
    exact From.inOrder hl ok v f f' (h := a.noX) (h' := b.noX) hab

end

end Verif
