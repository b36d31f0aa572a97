import Verif.Lemmas.CollFlush

/-
The program of the metadata flush, run by all processes.
-/

namespace Verif

variable {n : Net} {α : Type}

/-- The group has metadata. -/
def Net.hasMeta (n : Net) (p : Nat → Proc) (c : Comm) : Bool :=
  decide (8 * (n.len c + 1) < (mdSizes (n.ranks p c)).sum)

theorem mem_nodup (c : Comm) : (n.mem c).Nodup := by
  cases c with
  | world => exact List.nodup_range
  | group g => exact List.nodup_range.filter _

theorem idxOf_at {c : Comm} {i : Nat} (h : i < (n.mem c).length) : (n.mem c).idxOf (n.mem c)[i] = i :=
  (mem_nodup c).idxOf_getElem i h

theorem pos_lt {sub : Bool} (hok : n.ok sub) {r : Nat} (hr : r < n.np) : n.pos r < n.len (n.gc r) :=
  List.idxOf_lt_length_of_mem ((mem_gc hok (mem_comms.mpr ⟨r, hr, rfl⟩)).mpr ⟨hr, rfl⟩)

/-- What the processes of a group contribute is what the list of their queues says. -/
theorem map_pos {β : Type} {sub : Bool} (hok : n.ok sub) {c : Comm} (hc : c ∈ n.comms) (p : Nat → Proc)
    (f : Nat → Rank → β) : (n.mem c).map (fun r => f (n.pos r) (p r).k) = (n.ranks p c).mapIdx f := by
  refine List.ext_getElem (by simp [Net.ranks]) (fun i h1 h2 => ?_)
  have hi : i < (n.mem c).length := by simpa using h1
  have hg : n.gc (n.mem c)[i] = c := ((mem_gc hok hc).mp (List.getElem_mem hi)).2
  simp only [List.getElem_map, List.getElem_mapIdx, Net.ranks, Net.pos, hg, idxOf_at hi]

theorem send_even (l : List Nat) (t i : Nat) : (l.flatMap (fun o => [o, t])).getD (2 * i) 0 = l.getD i 0 := by
  induction l generalizing i with
  | nil => simp
  | cons a l ih =>
    cases i with
    | zero => simp
    | succ i =>
      have := ih i
      rw [List.flatMap_cons, show 2 * (i + 1) = 2 * i + 1 + 1 by omega]
      simpa using this

theorem send_odd (l : List Nat) (t i : Nat) (h : i < l.length) : (l.flatMap (fun o => [o, t])).getD (2 * i + 1) 0 = t := by
  induction l generalizing i with
  | nil => simp at h
  | cons a l ih =>
    cases i with
    | zero => simp
    | succ i =>
      have := ih i (by simpa using h)
      rw [List.flatMap_cons, show 2 * (i + 1) + 1 = 2 * i + 1 + 1 + 1 by omega]
      simpa using this

/-- Processes after a metadata flush. -/
def metaed (n : Net) (p : Nat → Proc) (r : Nat) : Proc :=
  { k := Rank.init, dirty := false, nmd := (p r).nmd + if n.hasMeta p (n.gc r) then 1 else 0 }

/-- Files after a metadata flush. -/
def metaedW (n : Net) (p : Nat → Proc) (W : Comm → Store) (c : Comm) : Store :=
  if c ∈ n.comms ∧ n.hasMeta p c then
    { W c with
      mds := (W c).mds ++ [⟨(W c).next, (mdSizes (n.ranks p c)).sum⟩]
      disk := (n.mem c).foldl (fun d r => writeAt d ((exscan 0 (mdSizes (n.ranks p c))).getD (n.pos r) 0 + (W c).next)
        ((mdBufs (n.ranks p c)).getD (n.pos r) [])) (W c).disk }
  else W c

/-- The metadata flush up to the barrier. -/
theorem meta_goes {φ : Sys α → Prop} (hφ : Resp n φ) {sub : Bool} (hok : n.ok sub) (p : Nat → Proc) (W : Comm → Store)
    (K : Nat → Proc → Prog α)
    (h : Goes n φ (fun r => if n.hasMeta p (n.gc r) then .tell .world .barrier {} (K r (metaed n p r)) else K r (metaed n p r))
      (metaedW n p W)) :
    Goes n φ (fun r => (metaP (n.gc r) (n.pos r) (n.len (n.gc r)) (p r)).bind (K r)) W := by
  have hin : ∀ r < n.np, n.gc r ∈ n.comms := fun r hr => mem_comms.mpr ⟨r, hr, rfl⟩
  let act : Comm → Bool := n.hasMeta p
  let sizes : Comm → List Nat := fun c => mdSizes (n.ranks p c)
  have hlen : ∀ c, (n.ranks p c).length = n.len c := fun c => by simp [Net.ranks, Net.len]
  let gargs : Nat → CArg := fun r => { nums := [(if n.pos r = 0 then 8 * (n.len (n.gc r) + 1) else 0) +
    ((p r).k.wreqs.map WReq.metaSize).sum] }
  have hg : ∀ c ∈ n.comms, ((n.mem c).map gargs).map (CArg.num 0) = sizes c := by
    intro c hc
    have e : ((n.mem c).map gargs).map (CArg.num 0) =
        (n.mem c).map (fun r => (fun i (k : Rank) => (if i = 0 then 8 * ((n.ranks p c).length + 1) else 0) +
          (k.wreqs.map WReq.metaSize).sum) (n.pos r) (p r).k) := by
      rw [List.map_map]
      refine List.map_congr_left (fun r hr => ?_)
      simp only [Function.comp, gargs, CArg.num, List.getD_cons_zero, hlen, ((mem_gc hok hc).mp hr).2]
    exact e.trans (map_pos hok hc p (fun i (k : Rank) => (if i = 0 then 8 * ((n.ranks p c).length + 1) else 0) +
          (k.wreqs.map WReq.metaSize).sum))
  let got : Nat → List Nat := fun r => if n.pos r = 0 then sizes (n.gc r) else []
  let off : Nat → Nat := fun r => (exscan 0 (sizes (n.gc r))).getD (n.pos r) 0
  let tail : Nat → List Nat → List Nat → Prog Proc := fun r sizes rb =>
    if 8 * (n.len (n.gc r) + 1) < numAt rb 1 then
      .call (n.gc r) .mkMeta { nums := [numAt rb 1] } fun doff =>
      .tell (n.gc r) .write (CArg.mk [numAt rb 0 + numAt doff 0]
        ((if n.pos r = 0 then putWords (n.len (n.gc r) :: inscan 0 sizes) else []) ++ (p r).k.metaBytes)) <|
      .tell (n.gc r) .closeD {} <|
      .tell .world .barrier {} <|
      .ret { k := Rank.init, dirty := false, nmd := (p r).nmd + 1 }
    else .ret { k := Rank.init, dirty := false, nmd := (p r).nmd }
  -- sizes to the first process
  refine Goes.groups hφ hok (fun _ => true) (k := .gather) (args := gargs)
    (next := fun r s => .call (n.gc r) .scatter { nums := if n.pos r = 0 then sendOffs s else [] } fun rb =>
      (tail r s rb).bind (K r))
    (Q := fun r => .call (n.gc r) .scatter { nums := if n.pos r = 0 then sendOffs (sizes (n.gc r)) else [] } fun rb =>
      (tail r (got r) rb).bind (K r)) (fun r hr _ => rfl) ?_ ?_
  · intro r hr
    have : n.res .gather gargs W r = got r := by
      show (if n.pos r = 0 then ((n.mem (n.gc r)).map gargs).map (CArg.num 0) else []) = _
      rw [hg _ (hin r hr)]
    rw [if_pos rfl, this]
    by_cases h0 : n.pos r = 0
    · simp only [if_pos h0, got]
    · simp only [if_neg h0]
  rw [put_pure (fun _ _ => rfl)]
  -- offsets to all
  let wargs : Nat → CArg := fun r =>
    CArg.mk [off r + (W (n.gc r)).next] ((mdBufs (n.ranks p (n.gc r))).getD (n.pos r) [])
  refine Goes.groups hφ hok (fun _ => true) (k := .scatter)
    (args := fun r => { nums := if n.pos r = 0 then sendOffs (sizes (n.gc r)) else [] })
    (next := fun r rb => (tail r (got r) rb).bind (K r))
    (Q := fun r => if act (n.gc r) then
        .call (n.gc r) .mkMeta { nums := [(sizes (n.gc r)).sum] } fun doff =>
        .tell (n.gc r) .write { nums := [off r + numAt doff 0], data := (wargs r).data } <|
        .tell (n.gc r) .closeD {} <| .tell .world .barrier {} (K r (metaed n p r))
      else K r (metaed n p r)) (fun r hr _ => rfl) ?_ ?_
  · intro r hr
    rw [if_pos rfl]
    have hsz : (sizes (n.gc r)).length = n.len (n.gc r) := by simp [sizes, mdSizes, hlen]
    have hpos := pos_lt hok hr
    have hroot : ((n.mem (n.gc r)).map (fun r => CArg.mk (if n.pos r = 0 then sendOffs (sizes (n.gc r)) else []) [])).getD 0 {} =
        CArg.mk (sendOffs (sizes (n.gc r))) [] := by
      have hl : 0 < (n.mem (n.gc r)).length := by
        have : n.len (n.gc r) = (n.mem (n.gc r)).length := rfl
        omega
      have hg0 : n.gc (n.mem (n.gc r))[0] = n.gc r := ((mem_gc hok (hin r hr)).mp (List.getElem_mem hl)).2
      have hp0 : n.pos (n.mem (n.gc r))[0] = 0 := by
        rw [Net.pos, hg0, idxOf_at hl]
      rw [List.getD_eq_getElem?_getD, List.getElem?_map, List.getElem?_eq_getElem hl]
      simp only [Option.map_some, Option.getD_some, hp0, if_true, hg0]
    have hres : n.res .scatter (fun r => { nums := if n.pos r = 0 then sendOffs (sizes (n.gc r)) else [] }) W r =
        [off r, (sizes (n.gc r)).sum] := by
      show [(List.getD _ 0 ({} : CArg)).num _, (List.getD _ 0 ({} : CArg)).num _] = _
      rw [hroot]
      simp only [CArg.num, sendOffs]
      rw [send_even, send_odd]
      · rfl
      · rw [exscan_length, hsz]
        exact hpos
    rw [hres]
    have hcond : (8 * (n.len (n.gc r) + 1) < numAt [off r, (sizes (n.gc r)).sum] 1) ↔ act (n.gc r) = true := by
      simp [act, Net.hasMeta, numAt, sizes]
    have hbuf : (if n.pos r = 0 then putWords (n.len (n.gc r) :: inscan 0 (got r)) else []) ++ (p r).k.metaBytes =
        (wargs r).data := by
      have hr' : r = (n.mem (n.gc r))[n.pos r]'hpos := (List.getElem_idxOf hpos).symm
      have hk : ((n.ranks p (n.gc r))[n.pos r]?) = some (p r).k := by
        rw [Net.ranks, List.getElem?_map, List.getElem?_eq_getElem hpos, ← hr']
        rfl
      show _ = (mdBufs (n.ranks p (n.gc r))).getD (n.pos r) []
      rw [mdBufs, List.getD_eq_getElem?_getD, List.getElem?_mapIdx, hk]
      simp only [Option.map_some, Option.getD_some, hlen]
      by_cases h0 : n.pos r = 0
      · simp only [if_pos h0, got, sizes]
      · simp only [if_neg h0]
    by_cases hx : act (n.gc r) = true
    · rw [if_pos hx]
      simp only [tail, if_pos (hcond.mpr hx), hbuf]
      simp only [metaed, if_pos (show n.hasMeta p (n.gc r) = true from hx)]
      rfl
    · rw [if_neg hx]
      simp only [tail, if_neg (fun y => hx (hcond.mp y))]
      simp only [metaed, if_neg (show ¬ n.hasMeta p (n.gc r) = true from hx)]
      rfl
  rw [put_pure (fun _ _ => rfl)]
  -- creation
  refine Goes.groups hφ hok act (k := .mkMeta) (args := fun r => { nums := [(sizes (n.gc r)).sum] })
    (next := fun r doff => .tell (n.gc r) .write { nums := [off r + numAt doff 0], data := (wargs r).data } <|
        .tell (n.gc r) .closeD {} <| .tell .world .barrier {} (K r (metaed n p r)))
    (Q := fun r => if act (n.gc r) then .tell (n.gc r) .write (wargs r) <|
        .tell (n.gc r) .closeD {} <| .tell .world .barrier {} (K r (metaed n p r)) else K r (metaed n p r)) ?_ ?_ ?_
  · intro r hr hx
    rw [if_pos hx]
  · intro r hr
    by_cases hx : act (n.gc r) = true
    · rw [if_pos hx, if_pos hx]
      rfl
    · simp only [if_neg hx]
  -- write
  refine Goes.groups hφ hok act (k := .write) (args := wargs)
    (next := fun r _ => .tell (n.gc r) .closeD {} <| .tell .world .barrier {} (K r (metaed n p r)))
    (Q := fun r => if act (n.gc r) then .tell (n.gc r) .closeD {} <| .tell .world .barrier {} (K r (metaed n p r))
      else K r (metaed n p r)) ?_ ?_ ?_
  · intro r hr hx
    simp only [if_pos hx, Prog.tell]
  · intro r hr
    by_cases hx : act (n.gc r) = true
    · simp only [if_pos hx]
    · simp only [if_neg hx]
  -- close
  refine Goes.groups hφ hok act (k := .closeD) (args := fun _ => {})
    (next := fun r _ => .tell .world .barrier {} (K r (metaed n p r)))
    (Q := fun r => if act (n.gc r) then .tell .world .barrier {} (K r (metaed n p r)) else K r (metaed n p r)) ?_ ?_ ?_
  · intro r hr hx
    simp only [if_pos hx, Prog.tell]
  · intro r hr
    by_cases hx : act (n.gc r) = true
    · simp only [if_pos hx]
    · simp only [if_neg hx]
  rw [put_pure (fun _ _ => rfl)]
  have eW : n.put .write act wargs (n.put .mkMeta act (fun r => { nums := [(sizes (n.gc r)).sum] }) W) = metaedW n p W := by
    funext c
    simp only [Net.put, metaedW, act]
    by_cases hc : c ∈ n.comms ∧ n.hasMeta p c = true
    · simp only [if_pos hc, perform, first_num hok hc.1 (fun c => { nums := [(sizes c).sum] }), foldl_map_mem]
      congr 1
      refine foldl_congr_mem (fun d r hr => ?_)
      have : n.gc r = c := ((mem_gc hok hc.1).mp hr).2
      simp only [wargs, off, CArg.num, List.getD_cons_zero, this, sizes]
    · simp only [if_neg hc]
  rw [eW]
  exact h

end Verif
