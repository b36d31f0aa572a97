import Verif.Lemmas.Disk
import Verif.Lemmas.Log
import Verif.Lemmas.ReadTotal
import Verif.Lemmas.ReadSpec

namespace Verif

open Spec (AW)

/-- `dsets'` describes the datasets of `dsets` in the same way as far as decoding is concerned. -/
def DsExt (dsets dsets' : DSets) : Prop :=
  ∀ did : Nat, (dsets[did]? = some none → dsets'[did]? = some none) ∧
    ∀ d, dsets[did]? = some (some d) → ∃ d', dsets'[did]? = some (some d') ∧ DSame d d'

theorem DsExt.get {dsets dsets' : DSets} (h : DsExt dsets dsets') {did : Int} {o : Option DInfo}
    (ho : dsetOf dsets did = .ok o) :
    (o = none ∧ dsetOf dsets' did = .ok none) ∨
      ∃ d d', o = some d ∧ dsetOf dsets' did = .ok (some d') ∧ DSame d d' := by
  unfold dsetOf at *
  split at ho
  · simp at ho
  · rename_i hn
    rw [if_neg hn]
    cases hg : dsets[did.toNat]? with
    | none => rw [hg] at ho; simp at ho
    | some o' =>
      rw [hg] at ho
      simp only [Res.ok.injEq] at ho
      subst ho
      cases o' with
      | none => left; rw [(h did.toNat).1 hg]; exact ⟨rfl, rfl⟩
      | some d =>
        obtain ⟨d', h1, h2⟩ := (h did.toNat).2 d hg
        right
        exact ⟨d, d', rfl, by rw [h1], h2⟩

theorem refDecode_congr {d d' : DInfo} (h : DSame d d') (buf : List Byte) (ent : Nat)
    (cache : List (Int × List MSel)) : refDecode d buf ent cache = refDecode d' buf ent cache := by
  simp only [refDecode, decDsize, h.1, h.2]

theorem stepL_ext {dsets dsets' : DSets} (h : DsExt dsets dsets') {share : Bool} {buf : List Byte}
    {off : Nat} {hd : Hdr} {cache : List (Int × List MSel)} {r}
    (hr : stepL dsets share buf off hd cache = .ok r) : stepL dsets' share buf off hd cache = .ok r := by
  unfold stepL at *
  cases ho : dsetOf dsets hd.did with
  | err => rw [ho] at hr; simp at hr
  | ub => rw [ho] at hr; simp at hr
  | ok o =>
    rw [ho] at hr
    rcases h.get ho with ⟨rfl, h1⟩ | ⟨d, d', rfl, h1, h2⟩
    · rw [h1]; exact hr
    · rw [h1]
      simp only [Res.ok_bind] at hr ⊢
      rw [← refDecode_congr h2, ← metaDecode_congr h2]
      exact hr

theorem stepC_ext {dsets dsets' : DSets} (h : DsExt dsets dsets') {share : Bool} {buf : List Byte}
    {off : Nat} {hd : Hdr} {cache : List (Int × (Nat × List Nat))} {r}
    (hr : stepC dsets share buf off hd cache = .ok r) : stepC dsets' share buf off hd cache = .ok r := by
  unfold stepC at *
  cases ho : dsetOf dsets hd.did with
  | err => rw [ho] at hr; simp at hr
  | ub => rw [ho] at hr; simp at hr
  | ok o =>
    rw [ho] at hr
    rcases h.get ho with ⟨rfl, h1⟩ | ⟨d, d', rfl, h1, h2⟩
    · rw [h1]; exact hr
    · rw [h1]
      simp only [Res.ok_bind] at hr ⊢
      rw [← metaDecode_congr h2]
      exact hr

theorem parseLoop_ext {ε κ : Type}
    {step step' : Nat → Hdr → List (Int × κ) → Res (List ε × List (Int × κ))} {buf : List Byte}
    (h : ∀ off hd c r, step off hd c = .ok r → step' off hd c = .ok r) :
    ∀ (fuel off : Nat) (c : List (Int × κ)) (es : List ε),
      parseLoop step buf fuel off c = .ok es → parseLoop step' buf fuel off c = .ok es
  | 0, off, c, es, hp => hp
  | fuel + 1, off, c, es, hp => by
    unfold parseLoop at *
    split at hp
    · rename_i hlt
      rw [if_pos hlt]
      obtain ⟨hd, h1, hp⟩ := Res.bind_ok hp
      obtain ⟨r, h2, hp⟩ := Res.bind_ok hp
      obtain ⟨off', h3, hp⟩ := Res.bind_ok hp
      obtain ⟨es', h4, hp⟩ := Res.bind_ok hp
      rw [h1]; simp only [Res.ok_bind]
      rw [h _ _ _ _ h2]; simp only [Res.ok_bind]
      rw [h3]; simp only [Res.ok_bind]
      rw [parseLoop_ext h fuel off' r.2 es' h4]
      exact hp
    · rename_i hlt
      rw [if_neg hlt]; exact hp

theorem Idx.parse_ext {dsets dsets' : DSets} (h : DsExt dsets dsets') {share : Bool} {buf : List Byte}
    {ix ix' : Idx} (hp : ix.parse dsets share buf = .ok ix') : ix.parse dsets' share buf = .ok ix' := by
  cases ix with
  | list es =>
    unfold Idx.parse at *
    obtain ⟨x, h1, h2⟩ := Res.bind_ok hp
    unfold parseL at *
    rw [parseLoop_ext (fun off hd c r => stepL_ext h) _ _ _ _ h1]
    exact h2
  | comp es =>
    unfold Idx.parse at *
    obtain ⟨x, h1, h2⟩ := Res.bind_ok hp
    unfold parseC at *
    rw [parseLoop_ext (fun off hd c r => stepC_ext h) _ _ _ _ h1]
    exact h2

theorem loadAll_ext {dsets dsets' : DSets} (h : DsExt dsets dsets') {share : Bool} {disk : Mem} :
    ∀ {ms : List Ext} {ix ix' : Idx}, loadAll dsets share disk ms ix = .ok ix' →
      loadAll dsets' share disk ms ix = .ok ix'
  | [], ix, ix', hp => hp
  | m :: ms, ix, ix', hp => by
    unfold loadAll at *
    obtain ⟨b, h1, hp⟩ := Res.bind_ok hp
    obtain ⟨i1, h2, hp⟩ := Res.bind_ok hp
    rw [h1]; simp only [Res.ok_bind]
    rw [Idx.parse_ext h h2]
    exact loadAll_ext h hp

theorem Ext.read_congr {disk disk' : Mem} {m : Ext} {off n : Nat}
    (h : ∀ a, m.addr ≤ a → a < m.addr + m.size → disk a = disk' a) :
    m.read disk off n = m.read disk' off n := by
  unfold Ext.read
  split
  · congr 1
    exact fileBytes_congr (fun a h1 h2 => h a (by omega) (by omega))
  · rfl

theorem loadAll_congr {dsets : DSets} {share : Bool} {disk disk' : Mem} :
    ∀ {ms : List Ext} {ix : Idx},
      (∀ m ∈ ms, ∀ a, m.addr ≤ a → a < m.addr + m.size → disk a = disk' a) →
      loadAll dsets share disk ms ix = loadAll dsets share disk' ms ix
  | [], ix, _ => rfl
  | m :: ms, ix, h => by
    unfold loadAll Ext.body
    have hm := h m (by simp)
    simp only [Ext.read_congr hm]
    congr 1
    funext b
    congr 1
    funext i
    exact loadAll_congr (fun m' hm' => h m' (by simp [hm']))

theorem DsExt.known {dsets dsets' : DSets} (h : DsExt dsets dsets') {w : AW} (hk : Spec.Known dsets w) :
    Spec.Known dsets' w := by
  have hlt := hk.lt
  cases hg : dsets[w.did]? with
  | none => rw [List.getElem?_eq_none_iff] at hg; omega
  | some o =>
    cases o with
    | none =>
      have := (h w.did).1 hg
      refine ⟨(List.getElem?_eq_some_iff.mp this).1, fun d hd => ?_⟩
      rw [this] at hd; simp at hd
    | some d0 =>
      obtain ⟨d', h1, h2⟩ := (h w.did).2 d0 hg
      refine ⟨(List.getElem?_eq_some_iff.mp h1).1, fun d hd => ?_⟩
      rw [h1] at hd
      simp only [Option.some.injEq] at hd
      subst hd
      have := hk.same d0 hg
      exact ⟨by rw [← h2.1]; exact this.1, by rw [← h2.2]; exact this.2⟩

theorem dsExt_append (dsets : DSets) (d : DInfo) : DsExt dsets (dsets ++ [some d]) := by
  intro did
  refine ⟨fun h => ?_, fun d' h => ⟨d', ?_, rfl, rfl⟩⟩ <;>
  · have := (List.getElem?_eq_some_iff.mp h).1
    rw [List.getElem?_append_left this]; exact h

theorem dsExt_setDims {dsets : DSets} {did : Nat} {dims : List Nat} {d : DInfo}
    (h : dsets[did]? = some (some d)) (hl : dims.length = d.ndim) :
    DsExt dsets (dsets.modify did (Option.map (fun d => { d with dims := dims }))) := by
  intro i
  by_cases hi : did = i
  · subst hi
    refine ⟨fun h' => ?_, fun d' h' => ?_⟩
    · rw [h] at h'; simp at h'
    · rw [h] at h'
      simp only [Option.some.injEq] at h'
      subst h'
      refine ⟨{ d with dims := dims }, ?_, ?_, rfl⟩
      · rw [List.getElem?_modify_eq, h]; rfl
      · simp [DInfo.ndim, hl] at *
  · simp only [List.getElem?_modify, if_neg hi, id_map']
    exact ⟨id, fun d' h' => ⟨d', h', rfl, rfl⟩⟩

end Verif
