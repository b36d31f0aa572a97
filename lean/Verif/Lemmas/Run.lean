import Verif.Lemmas.Dedup
import Verif.Lemmas.EncOK

namespace Verif

open Spec (AW)

/-- Same write and same request up to the file offset. -/
def SameReq (x y : AW × WReq) : Prop := y.1 = x.1 ∧ y.2 = { x.2 with foff := y.2.foff }

theorem forall₂_split {α β : Type} {R : α → β → Prop} {xs : List α} {pre : List β} {y : β}
    {post : List β} (h : List.Forall₂ R xs (pre ++ y :: post)) :
    ∃ pre' x post', xs = pre' ++ x :: post' ∧ List.Forall₂ R pre' pre ∧ R x y ∧
      List.Forall₂ R post' post := by
  induction pre generalizing xs with
  | nil =>
    cases h with
    | cons h1 h2 => exact ⟨[], _, _, rfl, List.Forall₂.nil, h1, h2⟩
  | cons p pre ih =>
    cases h with
    | cons h1 h2 =>
      obtain ⟨pre', x, post', e, a, b, c⟩ := ih h2
      exact ⟨_ :: pre', x, post', by rw [e]; rfl, List.Forall₂.cons h1 a, b, c⟩

theorem forall₂_split_left {α β : Type} {R : α → β → Prop} {ys : List β} {pre : List α} {x : α}
    {post : List α} (h : List.Forall₂ R (pre ++ x :: post) ys) :
    ∃ pre' y post', ys = pre' ++ y :: post' ∧ List.Forall₂ R pre pre' ∧ R x y ∧
      List.Forall₂ R post post' := by
  obtain ⟨a, b, c, e, h1, h2, h3⟩ := forall₂_split (R := fun a b => R b a) (List.Forall₂.flip h)
  exact ⟨a, b, c, e, h1.flip, h2, h3.flip⟩

theorem msize_same {xs ys : List (AW × WReq)} (h : List.Forall₂ SameReq xs ys) :
    msize ys = msize xs := by
  induction h with
  | nil => rfl
  | @cons x y xs ys h1 _ ih =>
    have : y.2.metaSize = x.2.metaSize := by rw [h1.2]; rfl
    simp [ih, this]

theorem forall₂_exists_left {α β : Type} {R : α → β → Prop} {xs : List α} {ys : List β} (h : List.Forall₂ R xs ys)
    {y : β} (hy : y ∈ ys) : ∃ x ∈ xs, R x y := by
  induction h with
  | nil => simp at hy
  | @cons x y' xs ys h1 _ ih =>
    rcases List.mem_cons.mp hy with rfl | hy
    · exact ⟨x, by simp, h1⟩
    · obtain ⟨x', a, b⟩ := ih hy
      exact ⟨x', by simp [a], b⟩

theorem first_same {cfg : Cfg} {xs ys : List (AW × WReq)} {w : AW} (h : List.Forall₂ SameReq xs ys)
    (hf : First cfg xs w) : First cfg ys w := by
  refine ⟨hf.1, ?_⟩
  intro y hy
  obtain ⟨x, hx, e⟩ := forall₂_exists_left h hy
  rw [e.1]
  exact hf.2 x hx

/-- File offsets do not matter for the section structure. -/
theorem isSection_same {cfg : Cfg} {xs ys : List (AW × WReq)} (h : IsSection cfg xs)
    (hf : List.Forall₂ SameReq xs ys) : IsSection cfg ys := by
  intro pre y post hy
  rw [hy] at hf
  obtain ⟨pre', x, post', hx, hpre, hxy, _⟩ := forall₂_split hf
  have hm := msize_same hpre
  obtain ⟨e1, e2⟩ := hxy
  rcases h pre' x post' hx with ⟨hs, hno⟩ | ⟨p1, w', k, p2, hp, hk, hsh, hsb, hrd, hfi, hr⟩
  · left
    refine ⟨by rw [e1, e2, hm, hs]; rfl, ?_⟩
    rw [e1]
    intro hsh hlen y' hy'
    obtain ⟨x', hx', e⟩ := forall₂_exists_left hpre hy'
    rw [e.1]
    exact hno hsh hlen x' hx'
  · right
    rw [hp] at hpre
    obtain ⟨q1, k2, q2, hq, hq1, ⟨f1, f2⟩, _⟩ := forall₂_split_left hpre
    refine ⟨q1, w', k2.2, q2, ?_, ?_, hsh, ?_, ?_, ?_, ?_⟩
    · have f1' : k2.1 = w' := f1
      rw [hq, ← f1']
    · rw [msize_same hq1, f2]
      simp only
      rw [hk]; rfl
    · rw [e1]; exact hsb
    · rw [e1]; exact hrd
    · rw [e1]
      exact first_same hq1 hfi
    · rw [e1, e2, hm, msize_same hq1, hr]; rfl

/-- Writes issued one after the other by a process. -/
def runWrites (cfg : Cfg) : List AW → Rank → Res Rank
  | [], st => .ok st
  | w :: ws, st => do
    let st' ← writeRank cfg w.d w.did w.bs w.data st
    runWrites cfg ws st'

/-- Conditions on a sequence of writes under which the deduplication table works. -/
structure EpochOK (cfg : Cfg) (ws : List AW) : Prop where
  ne : ∀ w ∈ ws, w.bs ≠ []
  mixed : cfg.share = true → ws.Pairwise (fun w' w => NoMixed cfg w w')

theorem runWrites_inv {cfg : Cfg} (ws : List AW) : ∀ (xs : List (AW × WReq)) (st : Rank),
    RankInv cfg xs st → EpochOK cfg (xs.map (·.1) ++ ws) →
    ∃ st' ys, runWrites cfg ws st = .ok st' ∧ RankInv cfg (xs ++ ys) st' ∧ ys.map (·.1) = ws ∧
      st'.nflushed = st.nflushed ∧ ∀ y ∈ ys, y.2.data = y.1.data := by
  induction ws with
  | nil =>
    intro xs st h _
    exact ⟨st, [], rfl, by simpa using h, rfl, rfl, by simp⟩
  | cons w ws ih =>
    intro xs st h hok
    have hmem : w ∈ xs.map (·.1) ++ w :: ws := by simp
    obtain ⟨st1, r, h1, h2, h3, h4⟩ := writeRank_inv h (hok.ne w hmem) (fun hs x hx => by
      have := hok.mixed hs
      rw [List.pairwise_append] at this
      exact this.2.2 x.1 (List.mem_map_of_mem hx) w (by simp))
    obtain ⟨st2, ys, g1, g2, g3, g4, g5⟩ := ih (xs ++ [(w, r)]) st1 h2 (by simpa using hok)
    refine ⟨st2, (w, r) :: ys, ?_, by simpa using g2, by simp [g3], by rw [g4, h3], ?_⟩
    · unfold runWrites; rw [h1]; exact g1
    · intro y hy
      rcases List.mem_cons.mp hy with rfl | hy
      · exact h4
      · exact g5 y hy

/-- Metadata sizes of requests in a section. -/
theorem secElem_hdr {cfg : Cfg} {prev : List (AW × WReq)} {w : AW} {r : WReq}
    (h : SecElem cfg prev w r) : r.did = w.did ∧ r.data = w.data ∧
      (r.metaSize = (AW.plain cfg w 0 0).metaSize ∨ r.metaSize ≤ 44) := by
  rcases h with ⟨h, _⟩ | ⟨p1, w', k, p2, _, _, _, _, _, _, h⟩
  · rw [h]; exact ⟨rfl, rfl, Or.inl rfl⟩
  · rw [h]
    refine ⟨rfl, rfl, Or.inr ?_⟩
    unfold AW.refTo mkRef WReq.metaSize WReq.selOff hdrSize
    simp only [sleN_length]
    split <;> omega

/-- Conditions on one write and its place in the file for its entry to be representable. -/
structure WFits (cfg : Cfg) (w : AW) (foff : Int) : Prop where
  did : w.did < 2 ^ 31
  sz : 44 + (selBytes cfg w.d w.bs).length < 2 ^ 31
  data : w.data.length < 2 ^ 63
  lo : 0 ≤ foff
  hi : foff < 2 ^ 63

theorem WFits.hdr {cfg : Cfg} {prev : List (AW × WReq)} {w : AW} {r : WReq}
    (h : WFits cfg w r.foff) (hs : SecElem cfg prev w r) : r.hdr.Fits := by
  obtain ⟨h1, h2, h3⟩ := secElem_hdr hs
  have hsz : r.metaSize < 2 ^ 31 := by
    have := h.sz
    rcases h3 with h3 | h3
    · rw [h3, plain_metaSize]; split <;> omega
    · omega
  have := h.did
  have := h.data
  have := h.lo
  have := h.hi
  constructor <;> simp only [WReq.hdr, h1, h2] <;> omega

/-- Metadata section of a process: the requests of its writes (issued from an empty queue), with the
file offsets assigned to their data. -/
def secOf (cfg : Cfg) (p : List (AW × Int)) : Res (List Byte) := do
  let st ← runWrites cfg (p.map Prod.fst) Rank.init
  return (List.zipWith (fun (r : WReq) (o : Int) => { r with foff := o }) st.wreqs
    (p.map Prod.snd)).flatMap WReq.bytes

/-- Sections of several processes, in rank order. -/
def metaOf (cfg : Cfg) : List (List (AW × Int)) → Res (List Byte)
  | [] => .ok []
  | p :: ps => do
    let a ← secOf cfg p
    let b ← metaOf cfg ps
    return a ++ b

theorem zipWith_foff (ys : List (AW × WReq)) : ∀ (os : List Int), ys.length = os.length →
    ∃ zs : List (AW × WReq), List.Forall₂ SameReq ys zs ∧
      zs.map (fun x => (x.1, x.2.foff)) = (ys.map (·.1)).zip os ∧
      zs.map (·.2) = List.zipWith (fun (r : WReq) (o : Int) => { r with foff := o }) (ys.map (·.2)) os := by
  induction ys with
  | nil => intro os _; exact ⟨[], List.Forall₂.nil, rfl, rfl⟩
  | cons y ys ih =>
    intro os hl
    cases os with
    | nil => simp at hl
    | cons o os =>
      obtain ⟨zs, h1, h2, h3⟩ := ih os (by simpa using hl)
      refine ⟨(y.1, { y.2 with foff := o }) :: zs, List.Forall₂.cons ⟨rfl, rfl⟩ h1, ?_, ?_⟩
      · simp [h2]
      · simp [h3]

theorem secOf_section {cfg : Cfg} {p : List (AW × Int)} (h : EpochOK cfg (p.map Prod.fst)) :
    ∃ xs, secOf cfg p = .ok (mbytes xs) ∧ xs.map (fun x => (x.1, x.2.foff)) = p ∧
      IsSection cfg xs := by
  obtain ⟨st, ys, h1, h2, h3, _, h5⟩ := runWrites_inv (p.map Prod.fst) [] Rank.init
    (RankInv.init cfg) (by simpa using h)
  simp only [List.nil_append] at h2
  have hl : ys.length = (p.map Prod.snd).length := by
    have := congrArg List.length h3
    simpa using this
  obtain ⟨zs, g1, g2, g3⟩ := zipWith_foff ys (p.map Prod.snd) hl
  refine ⟨zs, ?_, ?_, isSection_same h2.sec g1⟩
  · unfold secOf
    rw [h1]
    simp only [Res.ok_bind, Res.pure_eq, Res.ok.injEq]
    rw [h2.reqs, ← g3]
    unfold mbytes
    rw [List.flatMap_map]
  · rw [g2, h3, List.zip_map', List.map_id']

theorem metaOf_sections {cfg : Cfg} : ∀ {ps : List (List (AW × Int))},
    (∀ p ∈ ps, EpochOK cfg (p.map Prod.fst)) →
    ∃ secs : List (List (AW × WReq)), metaOf cfg ps = .ok ((secs.map mbytes).flatten) ∧
      List.Forall₂ (fun p xs => xs.map (fun x : AW × WReq => (x.1, x.2.foff)) = p ∧ IsSection cfg xs) ps secs
  | [], _ => ⟨[], rfl, List.Forall₂.nil⟩
  | p :: ps, h => by
    obtain ⟨xs, h1, h2, h3⟩ := secOf_section (h p (by simp))
    obtain ⟨secs, g1, g2⟩ := metaOf_sections (ps := ps) (fun q hq => h q (by simp [hq]))
    refine ⟨xs :: secs, ?_, List.Forall₂.cons ⟨h2, h3⟩ g2⟩
    unfold metaOf
    rw [h1]; simp only [Res.ok_bind]
    rw [g1]; rfl

end Verif
