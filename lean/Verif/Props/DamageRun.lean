import Verif.Props.Damage
import Verif.Props.FileEx

/-
C96: the metadata of histories, and cases of damage.
-/

namespace Verif.Props

open _root_.Verif.Spec (AW AFile Reach sizeField numberField kindField WholeEntries Foreign Named NamedGone refers packed blocksField needs refField Target)

theorem tiles_mbytes {xs : List (AW × WReq)} (h : ∀ x ∈ xs, x.2.hdr.Fits) : WholeEntries (xs.map (fun x => x.2.bytes)) := by
  intro p hp
  obtain ⟨x, hx, rfl⟩ := List.mem_map.mp hp
  have hl : 28 ≤ x.2.bytes.length := by
    rw [WReq.bytes_length]
    unfold WReq.metaSize WReq.selOff hdrSize
    omega
  refine ⟨hl, ?_⟩
  obtain ⟨hd, h1, h2, _⟩ := rdHdr_piece (pre := []) (rest := []) hl
  have h3 := rdHdr_req (h x hx) [] []
  rw [h3, Res.ok.injEq] at h1
  rw [← h2, ← h1, WReq.bytes_length]
  rfl

/-- **C96.** In every history the metadata consists of whole entries that say how long they are, so the theorems about
damage behind whole entries apply to it. -/
theorem C96_written {cfg : Cfg} {st : FState} {a : AFile} (h : Reach cfg st a) {m : Ext} (hm : m ∈ st.mds) :
    ∃ ps, WholeEntries ps ∧ m.body st.disk = .ok ps.flatten := by
  obtain ⟨g, hi⟩ := reach_inv h
  obtain ⟨k, k1, k2⟩ := List.mem_iff_getElem.mp hm
  have k3 : k < g.mdx.length := by rw [← hi.md.length_eq]; exact k1
  have hmd := (List.forall₂_iff_get.mp hi.md).2 k k1 k3
  simp only [List.get_eq_getElem, k2] at hmd
  refine ⟨(g.mdx[k].flatten).map (fun x => x.2.bytes), tiles_mbytes (fun x hx => ?_), ?_⟩
  · obtain ⟨xs, hxs, hx⟩ := List.mem_flatten.mp hx
    have hmem : xs ∈ g.mdx.flatten := List.mem_flatten.mpr ⟨_, List.getElem_mem k3, hxs⟩
    have hxm : x ∈ g.mdx.flatten.flatten := List.mem_flatten.mpr ⟨xs, hmem, hx⟩
    have hr := recordable_of (hi.wokm x hxm).1 (hi.foff _ hxm).1 (hi.foff _ hxm).2
    obtain ⟨p, q, e⟩ := List.append_of_mem hx
    exact hr.fits.hdr ((hi.sec xs hmem).1 p x q e)
  · rw [hmd.body]
    congr 1
    generalize g.mdx[k] = l
    induction l with
    | nil => rfl
    | cons xs l ih =>
      simp only [List.map_cons, List.flatten_cons, List.map_append, List.flatten_append, ih]
      rw [mbytes, List.flatMap_def]

/-! ### Cases -/

/-- A dataset of four cells and the entry of a write of cell 1. -/
def dmD : DInfo := ⟨[4], [some 4], 1⟩
def dmP : List Byte := (mkWReq ⟨true, true⟩ dmD 0 [⟨[1], [1]⟩] 0 [7]).bytes

theorem dm_tiles : WholeEntries [dmP] := by
  intro p hp
  rw [List.mem_singleton.mp hp]
  decide +kernel

/-- The entry is accepted by both indexes. -/
theorem dm_ok (compact : Bool) : ∃ ix, (Idx.empty compact).parse [some dmD, none] true [dmP].flatten = .ok ix := by
  cases compact
  · exact ⟨.list [⟨⟨44, 0, Flags.ofNat 0, 0, 1⟩, [⟨[1], [1], 0⟩], 1⟩], by decide +kernel⟩
  · exact ⟨.comp [⟨0, -1, some (1, [1, 1]), 0, 1, 1⟩], by decide +kernel⟩

/-- Hypotheses of the theorems: the entry is followed by a part of itself, by one with another dataset number, by one of a
removed dataset without size, by one with a negative size, by one that says it has three blocks, and by zeros. -/
example : (dmP.take 20 ≠ [] ∧ (dmP.take 20).length < 28 ∧ numberField (dmP.take 20) = 0) ∧
    (28 ≤ (dmP.set 4 2).length ∧ Foreign [some dmD, none] (dmP.set 4 2)) ∧
    (28 ≤ ((dmP.set 4 1).set 0 0).length ∧ NamedGone [some dmD, none] ((dmP.set 4 1).set 0 0) ∧ sizeField ((dmP.set 4 1).set 0 0) ≤ 0) ∧
    (28 ≤ (dmP.set 3 128).length ∧ Named [some dmD, none] (dmP.set 3 128) dmD ∧ sizeField (dmP.set 3 128) ≤ 0 ∧
      refers (dmP.set 3 128) = false) ∧
    (28 ≤ ((dmP.set 8 1).set 28 3).length ∧ Named [some dmD, none] ((dmP.set 8 1).set 28 3) dmD ∧
      0 < sizeField ((dmP.set 8 1).set 28 3) ∧ refers ((dmP.set 8 1).set 28 3) = false ∧ packed ((dmP.set 8 1).set 28 3) = false ∧
      blocksField ((dmP.set 8 1).set 28 3) = 3 ∧ ((dmP.set 8 1).set 28 3).length < needs dmD.ndim ((dmP.set 8 1).set 28 3)) := by
  refine ⟨?_, ⟨?_, ?_⟩, ⟨?_, ⟨1, ?_, rfl⟩, ?_⟩, ⟨?_, ⟨0, ?_, rfl⟩, ?_, ?_⟩, ⟨?_, ⟨0, ?_, rfl⟩, ?_, ?_, ?_, ?_, ?_⟩⟩ <;>
    (try unfold Foreign) <;> decide +kernel

/-- Hypotheses of the theorems about references: an entry of 36 bytes that refers to one byte before itself. -/
def dmR : List Byte := sleN 4 36 ++ sleN 4 0 ++ sleN 4 16 ++ sleN 8 0 ++ sleN 8 0 ++ sleN 8 (-1)

example : WholeEntries [dmR] ∧ 36 ≤ dmR.length ∧ (kindField dmR).testBit 5 = false ∧ Named [some dmD, none] dmR dmD ∧
    0 < sizeField dmR ∧ refers dmR = true ∧ ¬ Target [dmP] dmR := by
  refine ⟨fun p hp => ?_, by decide +kernel, by decide +kernel, ⟨0, by decide +kernel, rfl⟩, by decide +kernel,
    by decide +kernel, ?_⟩
  · rw [List.mem_singleton.mp hp]
    decide +kernel
  · rintro ⟨i, hi, h⟩
    have hi : i = 0 := by simpa using hi
    subst hi
    revert h
    decide +kernel

/-- Hypotheses of `C96_reads`: a file with a metadata dataset that was never written, of a session with one dataset. -/
example (compact : Bool) : ∃ st : FState, ∃ v b, st.mbuf = none ∧ st.idx[0]? = some none ∧ st.search 1 0 [] = .ok v ∧
    Ext.body st.disk ⟨500, 36⟩ = .ok b ∧ ∀ ix : Idx, ix.parse st.dsets st.cfg.share b = .err := by
  refine ⟨(FState.create ⟨true, true⟩ compact none 1 (fun _ => 0)).addDset dmD, _, List.replicate 28 0, rfl, rfl, rfl,
    by cases compact <;> decide +kernel, fun ix => ?_⟩
  have h := (C96_zeros (dsets := [some dmD]) (share := true) (ix := ix) (ps := []) (ix' := ix) (fun p hp => by simp at hp)
    (by cases ix <;> simp [Idx.parse, parseL, parseC, parseLoop]) (n := 28) (by omega)).1 ⟨Nat.le_refl _, dmD, rfl⟩
  exact h

/-- Hypotheses of `C96_parts`: a metadata dataset of one empty section, and one of one section that was never written. -/
example (compact : Bool) : ∃ st : FState, ∃ m : Ext, ∃ b p, st.mbuf = some 100 ∧ (∃ v, st.search 1 0 [] = .ok v) ∧
    loadPart st.disk [m] 100 0 0 = .ok (b, p) ∧ ∀ ix : Idx, ix.parse st.dsets st.cfg.share b = .err := by
  let mem : Mem := fun a => if a = 0 ∨ a = 100 then 1 else if a = 8 then 16 else if a = 108 then 44 else 0
  refine ⟨{ (FState.create ⟨true, true⟩ compact (some 100) 1 mem).addDset dmD with mds := [⟨0, 16⟩] }, ⟨100, 44⟩,
    List.replicate 28 0, none, rfl, ?_, ?_, fun ix => ?_⟩
  · have h : loadLoop { (FState.create ⟨true, true⟩ compact (some 100) 1 mem).addDset dmD with mds := [⟨0, 16⟩] } 100 [] 1 (0, 0) =
        .ok [] := by
      cases compact <;> decide +kernel
    refine ⟨([], { (FState.create ⟨true, true⟩ compact (some 100) 1 mem).addDset dmD with mds := [⟨0, 16⟩] }), ?_⟩
    unfold FState.search
    show (loadLoop _ 100 [] 1 (0, 0) >>= _) = _
    rw [h]
    rfl
  · cases compact <;> decide +kernel
  · exact (C96_zeros (dsets := [some dmD]) (share := true) (ix := ix) (ps := []) (ix' := ix) (fun p hp => by simp at hp)
      (by cases ix <;> simp [Idx.parse, parseL, parseC, parseLoop]) (n := 28) (by omega)).1 ⟨Nat.le_refl _, dmD, rfl⟩

end Verif.Props
