import Verif.Lemmas.Conn

/-!
C87: references to connectors.
-/

namespace Verif.Props

open Verif.Conn

/-- **C87, partial: references.** For every sequence of calls of an application that closes only what it was given: the references of the
library to every connector are those of the library itself, of the property lists, of connector information and of the open files, those
given to the application, and those lost in H5Pset_vol_log, H5VLconnector_str_to_info and H5Fopen (see `tallyStep`). -/
theorem C87_balance_partial {base : Nat → Nat} {next : Nat} (hb : Base base next) (plug : Option Nat) (ops : List Op)
    (hf : FairRun (start base plug next) ops .zero) :
    Balanced base ((start base plug next).run ops).1 (tally (start base plug next) ops .zero) :=
  (bal_run ops (bal_start hb plug) hf).toBalanced

/-- Calls that lose nothing. -/
def Tidy : Op → Prop
  | .setVolLog _ => False
  | .parse _ _ => False
  | .openFile _ => False
  | _ => True

theorem tally_tidy : ∀ (ops : List Op) (s : St) (t : Tally), (∀ op ∈ ops, Tidy op) →
    (tally s ops t).lost = t.lost ∧ (tally s ops t).lostBlocks = t.lostBlocks
  | [], _, _, _ => ⟨rfl, rfl⟩
  | op :: ops, s, t, h => by
    have h1 := tally_tidy ops (s.step op).1 (tallyStep s t op (s.step op).2) (fun o ho => h o (by simp [ho]))
    have h2 : (tallyStep s t op (s.step op).2).lost = t.lost ∧ (tallyStep s t op (s.step op).2).lostBlocks = t.lostBlocks := by
      have h0 := h op (by simp)
      generalize (s.step op).2 = out
      cases op <;> cases out <;> first | exact ⟨rfl, rfl⟩ | exact h0.elim | skip
      simp only [tallyStep]
      split <;> exact ⟨rfl, rfl⟩
    exact ⟨h1.1.trans h2.1, h1.2.trans h2.2⟩

/-- **C87, partial: everything is given back.** Without those three calls, once all property lists, files and connector information are
closed and the application has closed the identifiers it was given, only the references of the library itself are left. -/
theorem C87_free_partial {base : Nat → Nat} {next : Nat} (hb : Base base next) (plug : Option Nat) (ops : List Op)
    (hf : FairRun (start base plug next) ops .zero) (ht : ∀ op ∈ ops, Tidy op)
    (hl : ∀ h, ((start base plug next).run ops).1.list h = none)
    (hi : ∀ o ∈ ((start base plug next).run ops).1.infos, o = none) (hfi : ∀ o ∈ ((start base plug next).run ops).1.files, o = none)
    (ha : ∀ k, (tally (start base plug next) ops .zero).app k = 0) :
    (∀ k, ((start base plug next).run ops).1.led.refs k = base k) ∧ ((start base plug next).run ops).1.led.blocks = 0 := by
  have b := C87_balance_partial hb plug ops hf
  obtain ⟨t1, t2⟩ := tally_tidy ops (start base plug next) .zero ht
  generalize ((start base plug next).run ops).1 = s at *
  generalize tally (start base plug next) ops .zero = t at *
  have hl' : ∀ o ∈ s.lists, o = none := by
    intro o ho
    obtain ⟨n, hn, rfl⟩ := List.getElem_of_mem ho
    have := hl n
    unfold St.list at this
    rw [List.getElem?_eq_getElem hn] at this
    simpa using this
  have z : ∀ {α : Type} (f : Option α → Nat) (l : List (Option α)), f none = 0 → (∀ o ∈ l, o = none) → (l.map f).sum = 0 := by
    intro α f l hf h
    induction l with
    | nil => rfl
    | cons a l ih =>
      rw [List.map_cons, List.sum_cons, ih (fun o ho => h o (by simp [ho])), h a (by simp), hf]
  constructor
  · intro k
    have h1 := b.refs k
    have h2 := ha k
    have h3 : t.lost k = 0 := by rw [t1]; rfl
    have h4 : s.inUse k = 0 := by
      unfold St.inUse
      rw [z (listHolds · k) s.lists rfl hl', z (infoHolds · k) s.infos rfl hi, z (fileHolds · k) s.files rfl hfi]
    omega
  · have h1 := b.blocks
    have h3 : t.lostBlocks = 0 := t2
    have h4 : s.usedBlocks = 0 := by
      unfold St.usedBlocks
      rw [z _ s.lists rfl hl', z _ s.infos rfl hi]
    omega

/-- **C87: what is in use stays valid.** As long as the application closes only what it was given, files can be opened with every property
list, and its connector can be asked for and be set in another list. -/
theorem C87_inuse_partial {base : Nat → Nat} {next : Nat} (hb : Base base next) (plug : Option Nat) (ops : List Op)
    (hf : FairRun (start base plug next) ops .zero) {h : Nat} {p : CProp} (hl : ((start base plug next).run ops).1.list h = some p) :
    (((start base plug next).run ops).1.step (.openFile h)).2 = .done ∧
    (((start base plug next).run ops).1.step (.getId h)).2 = .id p.1 ∧
    ∀ h' i p', ((start base plug next).run ops).1.list h' = some p' →
      (((start base plug next).run ops).1.step (.setVol h' p.1 i)).2 = .done := by
  have b := C87_balance_partial hb plug ops hf
  generalize ((start base plug next).run ops).1 = s at *
  have hv := list_valid b hl
  refine ⟨?_, ?_, ?_⟩
  · simp only [St.step, hl]
    rw [if_neg]
    simp only [List.any_eq_true, decide_eq_true_eq, not_exists, not_and]
    intro c hc
    have h1 := fileIds_sub p c hc
    have h2 := list_le hl c
    have h3 := b.refs c
    omega
  · simp only [St.step, hl]
    rw [if_neg (by omega)]
  · intro h' i p' hl'
    simp only [St.step, St.setVol, hl']
    rw [if_neg (by omega)]

/-- **C87: H5Pset_vol_log** puts the log-based connector over the one that the list had, with the information of that, and changes no other
list, as long as the identifier of the connector is valid. -/
theorem C87_over_partial {base : Nat → Nat} {next : Nat} (hb : Base base next) (plug : Option Nat) (ops : List Op)
    (hf : FairRun (start base plug next) ops .zero) {h : Nat} {p : CProp} (hl : ((start base plug next).run ops).1.list h = some p)
    (hg : ∀ c, ((start base plug next).run ops).1.g = some c → 0 < ((start base plug next).run ops).1.led.refs c) :
    ∃ s' c, ((start base plug next).run ops).1.step (.setVolLog h) = (s', .done) ∧ s'.g = some c ∧
      s'.list h = some (c, .log p.1 p.2) ∧ ∀ h', h' ≠ h → s'.list h' = ((start base plug next).run ops).1.list h' := by
  have b := bal_run ops (bal_start hb plug) hf
  generalize ((start base plug next).run ops).1 = s at *
  generalize tally (start base plug next) ops .zero = t at *
  obtain ⟨b1, e1, _, _⟩ := bal_register b
  have hr : s.register.1.g = some s.register.2 ∧ 0 < s.register.1.led.refs s.register.2 := by
    have h1 := b1.refs s.register.2
    cases hg' : s.g with
    | some c =>
      have : s.register = (s, c) := by unfold St.register; rw [hg']
      rw [this]
      exact ⟨hg', hg c hg'⟩
    | none =>
      rw [hg', if_pos rfl] at h1
      refine ⟨?_, ?_⟩
      · unfold St.register
        rw [hg']
        simp only
        split <;> rfl
      · simp only [Tally.give, if_true] at h1
        omega
  have e4 : s.register.1.list h = some p := by unfold St.list; rw [e1]; exact hl
  have hv := list_valid b1.toBalanced e4
  have hi : p.2.Valid (s.register.1.led.plus (fun k => if k = p.1 then 1 else 0) 0) := by
    intro k hk
    have := hv.2 k hk
    simp only [Led.plus]
    omega
  have e5 : ({ s.register.1 with led := (s.register.1.led.plus (fun k => if k = p.1 then 1 else 0) 0).plus p.2.holds p.2.size } : St).list h =
      some p := e4
  simp only [St.step, St.setVolLog, e4, inc_plus hv.1, copyInfo_eq _ hi]
  unfold St.setVol
  rw [e5]
  simp only
  rw [if_neg (by simp only [Led.plus]; omega)]
  rw [takeProp_eq]
  · refine ⟨_, s.register.2, rfl, hr.1, ?_, fun h' hh => ?_⟩
    · have := join_some e4
      have hlen : h < s.register.1.lists.length := by
        rcases Nat.lt_or_ge h s.register.1.lists.length with h1 | h1
        · exact h1
        · rw [List.getElem?_eq_none h1] at this
          simp at this
      simp [St.list, hlen]
    · simp only [St.list, e1]
      rw [List.getElem?_set_ne (Ne.symm hh)]
  · simp only [Led.plus]
    omega
  · intro k hk
    simp only [CInfo.holds] at hk
    simp only [Led.plus]
    by_cases hk' : k = p.1
    · rw [if_pos hk']; omega
    · rw [if_neg hk'] at hk
      have := hv.2 k (by omega)
      omega

/-! ### Violations -/

/-- **C87 is violated: H5Pset_vol_log.** After H5Pset_vol_log and H5Pclose there are for ever more references than after H5Pclose alone: one
to the connector that the list had and all that belong to its information, and the memory of that. -/
theorem C87_log_violated {base : Nat → Nat} {next : Nat} (hb : Base base next) (plug : Option Nat) (ops : List Op)
    (hf : FairRun (start base plug next) ops .zero) {h : Nat} {p : CProp} (hl : ((start base plug next).run ops).1.list h = some p)
    {c : Nat} (hg : ((start base plug next).run ops).1.g = some c) :
    let s := ((start base plug next).run ops).1
    (∀ k, (s.run [.setVolLog h, .closeList h]).1.led.refs k =
      (s.run [.closeList h]).1.led.refs k + (if k = p.1 then 1 else 0) + p.2.holds k) ∧
    (s.run [.setVolLog h, .closeList h]).1.led.blocks = (s.run [.closeList h]).1.led.blocks + p.2.size := by
  have b := bal_run ops (bal_start hb plug) hf
  generalize ((start base plug next).run ops).1 = s at *
  generalize tally (start base plug next) ops .zero = t at *
  have b1 := bal_run [.closeList h] b ⟨trivial, trivial⟩
  have b2 := bal_run [.setVolLog h, .closeList h] b ⟨trivial, trivial, trivial⟩
  have f1 : tally s [.closeList h] t = t := by
    simp only [tally, tallyStep]
  have f2 : tally s [.setVolLog h, .closeList h] t = t.lose (listHolds (some p)) p.2.size := by
    simp only [tally, tallyStep, hg, reduceCtorEq, if_false, hl]
  rw [f1] at b1
  rw [f2] at b2
  have hr : s.register = (s, c) := by unfold St.register; rw [hg]
  have key : ∃ o, (s.setVolLog h).1.list h = some o ∧ (s.setVolLog h).1.lists.set h none = s.lists.set h none ∧
      (s.setVolLog h).1.infos = s.infos ∧ (s.setVolLog h).1.files = s.files := by
    unfold St.setVolLog
    rw [hr]
    simp only [hl]
    unfold St.setVol
    have e : ∀ l, ({ s with led := l } : St).list h = some p := fun _ => hl
    rw [e]
    simp only
    split
    · exact ⟨p, hl, rfl, rfl, rfl⟩
    · refine ⟨(takeProp (c, CInfo.log p.1 (copyInfo p.2 (s.led.inc p.1)).1) (copyInfo p.2 (s.led.inc p.1)).2).1, ?_, ?_, rfl, rfl⟩
      · have := join_some hl
        have hlen : h < s.lists.length := by
          rcases Nat.lt_or_ge h s.lists.length with h1 | h1
          · exact h1
          · rw [List.getElem?_eq_none h1] at this
            simp at this
        simp [St.list, hlen]
      · simp
  obtain ⟨o, k1, k2, k3, k4⟩ := key
  have u1 : (s.run [.closeList h]).1.lists = s.lists.set h none ∧ (s.run [.closeList h]).1.infos = s.infos ∧
      (s.run [.closeList h]).1.files = s.files := by
    simp [St.run, St.step, hl]
  have u2 : (s.run [.setVolLog h, .closeList h]).1.lists = s.lists.set h none ∧ (s.run [.setVolLog h, .closeList h]).1.infos = s.infos ∧
      (s.run [.setVolLog h, .closeList h]).1.files = s.files := by
    simp [St.run, St.step, k1, k2, k3, k4]
  constructor
  · intro k
    have r1 := b1.refs k
    have r2 := b2.refs k
    simp only [St.inUse, u1] at r1
    simp only [St.inUse, u2, Tally.lose, listHolds, Option.elim] at r2
    simp only [listHolds, Option.elim] at r1
    omega
  · have r1 := b1.blocks
    have r2 := b2.blocks
    simp only [St.usedBlocks, u1] at r1
    simp only [St.usedBlocks, u2, Tally.lose] at r2
    omega

/-! An identifier that is not valid stays so. -/

theorem dead_inc {l : Led} {c : Nat} (h : l.refs c = 0) (d : Nat) : (l.inc d).refs c = 0 := by
  unfold Led.inc
  split
  · exact h
  · next hd =>
    simp only
    rw [if_neg (by rintro rfl; exact hd h)]
    exact h

theorem dead_dec {l : Led} {c : Nat} (h : l.refs c = 0) (d : Nat) : (l.dec d).refs c = 0 := by
  unfold Led.dec
  split
  · exact h
  · next hd =>
    simp only
    rw [if_neg (by rintro rfl; exact hd h)]
    exact h

theorem dead_copy {c : Nat} : ∀ (i : CInfo) {l : Led}, l.refs c = 0 → (copyInfo i l).2.refs c = 0
  | .null, _, h => h
  | .own _, _, h => h
  | .log d i, l, h => by
    have h1 : (({ l with blocks := l.blocks + 1 } : Led).inc d).refs c = 0 := dead_inc (l := { l with blocks := l.blocks + 1 }) h d
    unfold copyInfo
    simp only
    split
    · exact h1
    · exact dead_copy i h1

theorem dead_free {c : Nat} : ∀ (i : CInfo) {l : Led}, l.refs c = 0 → (Conn.freeInfo i l).refs c = 0
  | .null, _, h => h
  | .own _, _, h => h
  | .log d i, l, h => by
    unfold Conn.freeInfo
    simp only
    split
    · exact dead_dec h d
    · exact dead_dec (dead_free i h) d

theorem dead_parse {c : Nat} : ∀ (i : CInfo) {l : Led}, l.refs c = 0 → (parseInfo i l).refs c = 0
  | .null, _, h => h
  | .own _, _, h => h
  | .log d i, l, h => by
    unfold parseInfo
    exact dead_inc (dead_parse i (dead_inc h d)) d

theorem dead_take {c : Nat} (p : CProp) {l : Led} (h : l.refs c = 0) : (takeProp p l).2.refs c = 0 := dead_copy p.2 (dead_inc h p.1)

theorem dead_drop {c : Nat} (p : CProp) {l : Led} (h : l.refs c = 0) : (dropProp p l).refs c = 0 := by
  unfold dropProp
  split
  · exact h
  · exact dead_dec (dead_free p.2 h) p.1

theorem dead_open {c : Nat} (i : CInfo) {l : Led} (h : l.refs c = 0) : (openInfo i l).refs c = 0 := by
  unfold openInfo
  split
  · exact dead_copy _ h
  · exact h

theorem dead_incs {c : Nat} : ∀ (ids : List Nat) {l : Led}, l.refs c = 0 → (ids.foldl Led.inc l).refs c = 0
  | [], _, h => h
  | d :: ids, _, h => dead_incs ids (dead_inc h d)

theorem dead_decs {c : Nat} : ∀ (ids : List Nat) {l : Led}, l.refs c = 0 → (ids.foldl Led.dec l).refs c = 0
  | [], _, h => h
  | d :: ids, _, h => dead_decs ids (dead_dec h d)

/-- `H5VL_LOG_g` is the number of a connector that has been closed. -/
def Stale (s : St) (c : Nat) : Prop := s.g = some c ∧ s.led.refs c = 0

theorem stale_setVol {s : St} {c : Nat} (h : Stale s c) (x d : Nat) (i : CInfo) : Stale (s.setVol x d i).1 c := by
  unfold St.setVol
  split
  · exact h
  · split
    · exact h
    · exact ⟨h.1, dead_drop _ (dead_take _ h.2)⟩

theorem stale_step {s : St} {c : Nat} (h : Stale s c) (op : Op) : Stale (s.step op).1 c := by
  have hr : s.register = (s, c) := by unfold St.register; rw [h.1]
  cases op with
  | register => simp only [St.step, hr]; exact h
  | create => exact ⟨h.1, dead_inc h.2 0⟩
  | setVol x d i => exact stale_setVol h x d i
  | setVolLog x =>
    simp only [St.step, St.setVolLog, hr]
    split
    · exact h
    · next old _ => exact stale_setVol (s := { s with led := (copyInfo old.2 (s.led.inc old.1)).2 }) ⟨h.1, dead_copy _ (dead_inc h.2 _)⟩ _ _ _
  | copyList x =>
    simp only [St.step]
    split
    · exact h
    · exact ⟨h.1, dead_take _ h.2⟩
  | closeList x =>
    simp only [St.step]
    split
    · exact h
    · exact ⟨h.1, dead_drop _ h.2⟩
  | getId x =>
    simp only [St.step]
    split
    · exact h
    · split
      · exact h
      · exact ⟨h.1, dead_inc h.2 _⟩
  | getInfo x =>
    simp only [St.step]
    split
    · exact h
    · exact ⟨h.1, dead_copy _ h.2⟩
  | freeInfo x =>
    simp only [St.step]
    split
    · exact h
    · exact ⟨h.1, dead_free _ h.2⟩
  | closeId d =>
    simp only [St.step]
    split
    · exact h
    · exact ⟨h.1, dead_dec h.2 _⟩
  | parse d i =>
    simp only [St.step]
    split
    · exact h
    · exact ⟨h.1, dead_parse _ h.2⟩
  | openFile x =>
    simp only [St.step]
    split
    · exact h
    · split
      · exact h
      · exact ⟨h.1, dead_incs _ (dead_open _ h.2)⟩
  | closeFile x =>
    simp only [St.step]
    split
    · exact h
    · exact ⟨h.1, dead_decs _ h.2⟩

theorem stale_run {c : Nat} : ∀ (ops : List Op) {s : St}, Stale s c → Stale (s.run ops).1 c
  | [], _, h => h
  | op :: ops, _, h => stale_run ops (stale_step h op)

theorem stale_fails {s : St} {c : Nat} (h : Stale s c) : (s.step .register).2 = .id c ∧
    (∀ x i, (s.step (.setVol x c i)).2 = .failed) ∧ ∀ x, (s.step (.setVolLog x)).2 = .failed := by
  have hr : s.register = (s, c) := by unfold St.register; rw [h.1]
  have h1 : ∀ {s : St}, s.led.refs c = 0 → ∀ x i, (s.setVol x c i).2 = .failed := by
    intro s hs x i
    unfold St.setVol
    split
    · rfl
    · rw [if_pos hs]
  refine ⟨by simp only [St.step, hr], fun x i => h1 h.2 x i, fun x => ?_⟩
  simp only [St.step, St.setVolLog, hr]
  split
  · rfl
  · exact h1 (dead_copy _ (dead_inc h.2 _)) _ _

/-- The documented use (doc/api.md, H5VL_log_register): a list, the connector, H5Pset_vol, H5VLclose; then a file is opened and closed and the
list is closed. -/
def docSession (c : Nat) : List Op :=
  [.create, .register, .setVol 0 c .null, .closeId c, .openFile 0, .closeFile 0, .closeList 0]

theorem doc_stale {base : Nat → Nat} {next : Nat} (hb : Base base next) :
    ((start base none next).run (docSession next)).2 = [.done, .id next, .done, .done, .done, .done, .done] ∧
    FairRun (start base none next) (docSession next) .zero ∧ Stale ((start base none next).run (docSession next)).1 next := by
  have hn : next ≠ 0 := by
    rintro rfl
    have := hb.native
    have := hb.fresh 0 (Nat.le_refl _)
    omega
  have h0 : base 0 ≠ 0 := by have := hb.native; omega
  refine ⟨?_, ?_, ?_, ?_⟩ <;>
    simp [docSession, start, St.run, St.step, St.register, St.setVol, St.list, takeProp, dropProp, copyInfo, Conn.freeInfo, Led.inc, Led.dec,
      fileIds, openInfo, FairRun, Fair, tallyStep, Tally.zero, Tally.give, CInfo.Valid, CInfo.holds, hn, hn.symm, h0]

/-- **C87 is violated: using the connector again.** After the documented use, H5VL_log_register returns the identifier that has been closed,
and H5Pset_vol and H5Pset_vol_log fail, whatever is called in between, until the end of the program. -/
theorem C87_again_violated {base : Nat → Nat} {next : Nat} (hb : Base base next) :
    ((start base none next).run (docSession next)).2 = [.done, .id next, .done, .done, .done, .done, .done] ∧
    ∀ ops, let s := (((start base none next).run (docSession next)).1.run ops).1
      (s.step .register).2 = .id next ∧ (∀ h i, (s.step (.setVol h next i)).2 = .failed) ∧
        ∀ h, (s.step (.setVolLog h)).2 = .failed :=
  ⟨(doc_stale hb).1, fun ops => stale_fails (stale_run ops (doc_stale hb).2.2)⟩

/-- **C87 is violated: registering twice.** Two parts of a program call H5VL_log_register and close the identifier, as documented; one of them has set the
connector in a property list.  The second H5VLclose succeeds, the list is left with a connector that is gone, and no file can be opened with it. -/
theorem C87_twice_violated {base : Nat → Nat} {next : Nat} (hb : Base base next) :
    ∃ s, ((start base none next).run [.create, .register, .setVol 0 next .null, .register, .closeId next, .closeId next]) =
        (s, [.done, .id next, .done, .id next, .done, .done]) ∧
      s.list 0 = some (next, .null) ∧ s.led.refs next = 0 ∧ (s.step (.openFile 0)).2 = .failed := by
  have hn : next ≠ 0 := by
    rintro rfl
    have := hb.native
    have := hb.fresh 0 (Nat.le_refl _)
    omega
  have h0 : base 0 ≠ 0 := by have := hb.native; omega
  refine ⟨_, Prod.ext rfl ?_, ?_, ?_, ?_⟩ <;>
    simp [start, St.run, St.step, St.register, St.setVol, St.list, takeProp, dropProp, copyInfo, Conn.freeInfo, Led.inc, Led.dec,
      fileIds, hn, hn.symm, h0]

/-! ### Cases -/

/-- Two references of the library to the native connector, another connector with number `3`. -/
def cnBase (k : Nat) : Nat := if k = 0 then 2 else if k = 3 then 1 else 0

theorem cn_base : Base cnBase 5 := ⟨by decide, fun k hk => by unfold cnBase; rw [if_neg (by omega), if_neg (by omega)]⟩

/-- Two lists, one with the log-based connector over the third one, copied; its connector and information are asked for; all is closed. -/
def cnOps : List Op :=
  [.create, .register, .setVol 0 5 (.log 3 (.own 7)), .copyList 0, .closeList 0, .getId 1, .getInfo 1, .closeId 5, .freeInfo 0, .closeId 5,
   .closeList 1]

/-- The hypotheses of `C87_free_partial`. -/
example : FairRun (start cnBase none 5) cnOps .zero ∧ (∀ op ∈ cnOps, Tidy op) ∧
    (∀ h, ((start cnBase none 5).run cnOps).1.list h = none) ∧ (∀ o ∈ ((start cnBase none 5).run cnOps).1.infos, o = none) ∧
    ((start cnBase none 5).run cnOps).1.files = [] ∧ (∀ k, (tally (start cnBase none 5) cnOps .zero).app k = 0) ∧
    ((start cnBase none 5).run cnOps).2 =
      [.done, .id 5, .done, .done, .done, .id 5, .done, .done, .done, .done, .done] := by
  refine ⟨⟨trivial, trivial, ?_, trivial, trivial, trivial, trivial, ?_, trivial, ?_, trivial, trivial⟩, ?_, ?_, by decide, rfl,
    ?_, by decide⟩
  · intro k hk
    simp only [CInfo.holds] at hk
    by_cases h : k = 3
    · subst h
      decide
    · rw [if_neg h] at hk
      omega
  · unfold Fair
    decide
  · unfold Fair
    decide
  · intro op hop
    simp only [cnOps, List.mem_cons, List.not_mem_nil, or_false] at hop
    rcases hop with rfl | rfl | rfl | rfl | rfl | rfl | rfl | rfl | rfl | rfl | rfl <;> trivial
  · intro h
    have e : ((start cnBase none 5).run cnOps).1.lists = [none, none] := by decide
    unfold St.list
    rw [e]
    match h with
    | 0 => rfl
    | 1 => rfl
    | _ + 2 => rfl
  · intro k
    simp [tally, cnOps, tallyStep, Tally.zero, Tally.give, Tally.back, start, St.step, St.register, St.setVol, St.list, takeProp, dropProp,
      copyInfo, Conn.freeInfo, Led.inc, Led.dec, cnBase]

/-- H5Pset_vol_log twice: the connector over itself; afterwards three references to the native connector are left, of which one is lost. -/
example : FairRun (start cnBase none 5) [.create, .setVolLog 0] .zero ∧
    ((start cnBase none 5).run [.create, .setVolLog 0]).1.list 0 = some (5, .log 0 .null) ∧
    ((start cnBase none 5).run [.create, .setVolLog 0, .setVolLog 0]).1.list 0 = some (5, .log 5 (.log 0 .null)) ∧
    ((start cnBase none 5).run [.create, .setVolLog 0, .closeList 0]).1.led.refs 0 = 3 ∧
    ((start cnBase none 5).run [.create, .setVolLog 0, .setVolLog 0, .closeList 0]).1.led.refs 0 = 4 ∧
    ((start cnBase none 5).run [.create, .setVolLog 0, .setVolLog 0, .closeList 0]).1.led.refs 5 = 2 :=
  ⟨⟨trivial, trivial, trivial⟩, by decide, by decide, by decide, by decide, by decide⟩

end Verif.Props
