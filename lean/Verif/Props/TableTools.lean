import Verif.Spec.TableTools
import Verif.Props.TableRun
import Verif.Props.Tools
import Verif.Model.Replay

/-
C101: what h5ldump and h5lreplay make of every table at the beginning of a metadata dataset.
-/

namespace Verif.Props

open _root_.Verif.Spec (bytesOf sectionsSaid endSaid bodyAt startSaid between Within lastEnd cutAt WholeEntries NamedGone SameBody)

theorem ends_bytes (disk : Mem) (m : Ext) : m.ends disk =
    if (bytesOf disk m).length < bodyAt (bytesOf disk m) then .err
    else .ok ((List.range (sectionsSaid (bytesOf disk m))).map (endSaid (bytesOf disk m))) := by
  unfold Ext.ends
  simp only [read_bytes]
  generalize bytesOf disk m = b
  by_cases c0 : b.length < 8
  · rw [if_neg (by omega), if_pos (by unfold bodyAt; omega)]; rfl
  rw [if_pos (by omega), Res.ok_bind, List.drop_zero]
  show ((if 8 + 8 * sectionsSaid b ≤ b.length then Res.ok ((b.drop 8).take (8 * sectionsSaid b)) else .err).bind fun ob =>
    .ok (words (sectionsSaid b) ob)) = _
  by_cases c1 : b.length < bodyAt b
  · rw [if_pos c1, if_neg (by unfold bodyAt at c1; omega)]; rfl
  · rw [if_neg c1, if_pos (by unfold bodyAt at c1; omega)]
    show Res.ok (words _ _) = _
    rw [words_table]

theorem mapRes_congr {α β γ : Type} {f : α → Res γ} {g : β → Res γ} {h : α → β} : ∀ {l : List α}, (∀ a ∈ l, f a = g (h a)) →
    mapRes f l = mapRes g (l.map h)
  | [], _ => rfl
  | a :: l, H => by
    rw [List.map_cons, mapRes, mapRes, H a (List.mem_cons_self ..), mapRes_congr fun x hx => H x (List.mem_cons_of_mem _ hx)]

theorem recorded_bytes (b : List Byte) : recorded ((List.range (sectionsSaid b)).map (endSaid b)) =
    (List.range (sectionsSaid b)).map (fun k => (startSaid b k, endSaid b k)) := by
  unfold recorded
  rw [List.length_map, List.length_range]
  apply List.map_congr_left
  intro k hk
  rw [List.mem_range] at hk
  unfold sectionStart sectionEnd startSaid
  rw [List.length_map, List.length_range, ends_getD hk]
  rcases k with _ | k
  · rw [if_pos rfl, if_pos rfl]; rfl
  · rw [if_neg (by omega), if_neg (by omega), ends_getD (by omega)]

/-- **C101.** What h5ldump makes of a metadata dataset, whatever its table says and whatever was in the memory it allocates: a table
that does not fit is refused; otherwise section after section is shown, and one that is not inside of the dataset is refused. -/
theorem C101_shown (T : DSets) (disk : Mem) (d : Bool) (junk : Ext → Nat → Nat) (m : Ext) :
    dumpMd T disk d junk m =
      if (bytesOf disk m).length < bodyAt (bytesOf disk m) then .err
      else mapRes (fun k => if Within (bytesOf disk m) k then
          dumpSec T disk d (between (bytesOf disk m) (startSaid (bytesOf disk m) k) (endSaid (bytesOf disk m) k)) else .err)
        (List.range (sectionsSaid (bytesOf disk m))) := by
  unfold dumpMd
  rw [ends_bytes]
  by_cases c : (bytesOf disk m).length < bodyAt (bytesOf disk m)
  · rw [if_pos c, if_pos c]; rfl
  rw [if_neg c, if_neg c, Res.ok_bind, C36_bounds _ (by simp), recorded_bytes]
  refine (mapRes_congr fun k hk => ?_).symm
  simp only [read_bytes]
  generalize bytesOf disk m = b
  by_cases c1 : endSaid b k < startSaid b k
  · rw [if_pos c1, if_neg (by unfold Within; omega)]
  · rw [if_neg c1]
    by_cases c2 : endSaid b k ≤ b.length
    · rw [if_pos (show Within b k from ⟨by omega, c2⟩), if_pos (by omega)]; rfl
    · rw [if_neg (show ¬ Within b k by unfold Within; omega), if_neg (by omega)]; rfl

/-- Two lists that map to the same results. -/
theorem mapRes_same {α β : Type} {f g : α → Res β} {l : List α} (h : ∀ a ∈ l, f a = g a) : mapRes f l = mapRes g l := by
  have := mapRes_congr (f := f) (g := g) (h := id) h
  rwa [List.map_id] at this

theorem mapRes_first {α β : Type} {f : α → Res β} {x : α} {r : Res β} (hr : r = .err ∨ r = .ub) : ∀ {l l' : List α},
    (∀ a ∈ l, ∃ v, f a = .ok v) → f x = r → mapRes f (l ++ x :: l') = (match r with | .ub => .ub | _ => .err)
  | [], l', _, hx => by
    rw [List.nil_append, mapRes, hx]
    rcases hr with rfl | rfl <;> rfl
  | a :: l, l', h, hx => by
    obtain ⟨v, hv⟩ := h a (List.mem_cons_self ..)
    rw [List.cons_append, mapRes, hv, Res.ok_bind, mapRes_first hr (fun y hy => h y (List.mem_cons_of_mem _ hy)) hx]
    rcases hr with rfl | rfl <;> rfl

theorem range_at {n k : Nat} (h : k < n) : List.range n = List.range k ++ k :: List.range' (k + 1) (n - k - 1) := by
  rw [List.range_eq_range', List.range_eq_range', ← List.range'_succ,
    show (n - k - 1 + 1) = n - k by omega, show n = k + (n - k) by omega, ← List.range'_append]
  simp

/-- **C101.** The first section that ends before its start or behind the dataset makes h5ldump fail. -/
theorem C101_refused {T : DSets} {disk : Mem} {d : Bool} {m : Ext} {k : Nat} (hk : k < sectionsSaid (bytesOf disk m))
    (hb : bodyAt (bytesOf disk m) ≤ m.size) (hbad : ¬ Within (bytesOf disk m) k)
    (hgood : ∀ j < k, Within (bytesOf disk m) j ∧ ∃ v, dumpSec T disk d
      (between (bytesOf disk m) (startSaid (bytesOf disk m) j) (endSaid (bytesOf disk m) j)) = .ok v) (junk : Ext → Nat → Nat) :
    dumpMd T disk d junk m = .err := by
  rw [C101_shown, bytesOf_length, if_neg (by omega), range_at hk]
  refine mapRes_first (r := .err) (.inl rfl) (fun j hj => ?_) (if_neg hbad)
  obtain ⟨h1, h2⟩ := hgood j (List.mem_range.mp hj)
  rw [if_pos h1]
  exact h2

/-- **C101, violated.** A table without sections: h5ldump succeeds and shows nothing, whatever entries follow. -/
theorem C101_none_violated {disk : Mem} {m : Ext} (h : sectionsSaid (bytesOf disk m) = 0) (h8 : 8 ≤ m.size) (T : DSets) (d : Bool)
    (junk : Ext → Nat → Nat) : dumpMd T disk d junk m = .ok [] := by
  rw [C101_shown, bytesOf_length, if_neg (by unfold bodyAt; omega), h]
  rfl

theorem bytesOf_cut (disk : Mem) {m : Ext} {n : Nat} (h : n ≤ m.size) : bytesOf disk ⟨m.addr, n⟩ = (bytesOf disk m).take n := by
  have := bytesOf_part (disk := disk) (m := m) (off := 0) (n := n) (by omega)
  rw [List.drop_zero, Nat.add_zero] at this
  exact this

theorem startSaid_take {b : List Byte} {n k : Nat} (h8 : 8 ≤ n) (h : 8 + 8 * k ≤ n) : startSaid (b.take n) k = startSaid b k := by
  unfold startSaid bodyAt
  rw [sectionsSaid_take h8]
  by_cases c : k = 0
  · rw [if_pos c, if_pos c]
  · rw [if_neg c, if_neg c, endSaid_take (by omega)]

/-- **C101, violated.** What lies behind the last end is left out: h5ldump shows the same, and fails for the same reasons, as if the
dataset ended there. -/
theorem C101_behind_violated {disk : Mem} {m : Ext} {n : Nat} (hn : n ≤ m.size) (hb : bodyAt (bytesOf disk m) ≤ n)
    (he : ∀ k < sectionsSaid (bytesOf disk m), endSaid (bytesOf disk m) k ≤ n) (T : DSets) (d : Bool) (junk junk' : Ext → Nat → Nat) :
    dumpMd T disk d junk m = dumpMd T disk d junk' ⟨m.addr, n⟩ := by
  have hl := bytesOf_length disk m
  rw [C101_shown, C101_shown, bytesOf_cut disk hn]
  generalize bytesOf disk m = b at *
  have h8 : 8 ≤ n := by unfold bodyAt at hb; omega
  have hbt : bodyAt (b.take n) = bodyAt b := by unfold bodyAt; rw [sectionsSaid_take h8]
  rw [hbt, List.length_take, if_neg (by omega), if_neg (by omega), sectionsSaid_take h8]
  refine mapRes_same fun k hk => ?_
  rw [List.mem_range] at hk
  have hk' : 8 + 8 * k + 8 ≤ n := by unfold bodyAt at hb; omega
  have e1 : endSaid (b.take n) k = endSaid b k := endSaid_take hk'
  have e2 : startSaid (b.take n) k = startSaid b k := startSaid_take h8 (by omega)
  have e3 : Within (b.take n) k ↔ Within b k := by
    unfold Within
    rw [e1, e2, List.length_take]
    have := he k hk
    omega
  have e4 : between (b.take n) (startSaid b k) (endSaid b k) = between b (startSaid b k) (endSaid b k) := by
    unfold between
    rw [List.drop_take, List.take_take]
    have := he k hk
    rw [Nat.min_eq_left (by omega)]
  rw [e1, e2, e4]
  by_cases c : Within b k
  · rw [if_pos c, if_pos (e3.mpr c)]
  · rw [if_neg c, if_neg (fun h => c (e3.mp h))]

/-- **C101, violated.** An end inside an entry: the entry is read beyond the buffer of the section. -/
theorem C101_inside_violated {T : DSets} {disk : Mem} {d : Bool} {m : Ext} {k : Nat} (hk : k < sectionsSaid (bytesOf disk m))
    (hb : bodyAt (bytesOf disk m) ≤ m.size) (hw : Within (bytesOf disk m) k)
    (hgood : ∀ j < k, Within (bytesOf disk m) j ∧ ∃ v, dumpSec T disk d
      (between (bytesOf disk m) (startSaid (bytesOf disk m) j) (endSaid (bytesOf disk m) j)) = .ok v)
    {ps : List (List Byte)} {x : List Byte} (hps : WholeEntries ps) {es : List MEnt} (hp : parseL T true ps.flatten = .ok es)
    (hx : x ≠ []) (hl : x.length < 28) (hg : x.length < 8 ∨ ¬ NamedGone T x)
    (hsec : between (bytesOf disk m) (startSaid (bytesOf disk m) k) (endSaid (bytesOf disk m) k) = ps.flatten ++ x)
    (junk : Ext → Nat → Nat) : dumpMd T disk d junk m = .ub := by
  rw [C101_shown, bytesOf_length, if_neg (by omega), range_at hk]
  refine mapRes_first (r := .ub) (.inr rfl) (fun j hj => ?_) ?_
  · obtain ⟨h1, h2⟩ := hgood j (List.mem_range.mp hj)
    rw [if_pos h1]
    exact h2
  · rw [if_pos hw, hsec]
    have h0 : (Idx.list []).parse T true ps.flatten = .ok (.list es) := by
      unfold Idx.parse; simp only; rw [hp]; rfl
    have := C96_short_violated hps h0 hx hl hg
    unfold Idx.parse at this
    simp only at this
    unfold dumpSec
    cases h : parseL T true (ps.flatten ++ x) with
    | ok v => rw [h] at this; cases this
    | err => rw [h] at this; cases this
    | ub => rfl

/-! ### h5lreplay -/

theorem replayShare_one {α : Type} (off : Int) : ∀ (l : List α) (j : Nat), replayShare 1 off l j = l
  | [], _ => rfl
  | x :: l, j => by
    rw [replayShare, if_pos (Int.tmod_one _), replayShare_one off l (j + 1)]
    rfl

theorem low32_cases (w : Nat) : low32 w = if w % 2 ^ 32 < 2 ^ 31 then ((w % 2 ^ 32 : Nat) : Int) else ((w % 2 ^ 32 : Nat) : Int) - 2 ^ 32 := by
  have h256 : (256 : Nat) ^ 4 = 2 ^ 32 := by decide
  unfold low32 signed
  rw [h256]
  by_cases c : w % 2 ^ 32 < 2 ^ 31
  · rw [if_pos c, if_pos (by omega)]
  · rw [if_neg c, if_neg (by omega)]; rfl

/-- **C101.** What process `r` of `np` of h5lreplay takes from a metadata dataset with at least as many sections as processes,
whatever its table says: the entries from the end of the section before its first to the end of its last; all other ends are ignored. -/
theorem C101_processes {disk : Mem} {m : Ext} {np r : Nat} (hb : bodyAt (bytesOf disk m) ≤ m.size) (hs : m.size < 2 ^ 31)
    (hr : r < np) (hn : np ≤ sectionsSaid (bytesOf disk m)) (dsets : DSets) (share : Bool) :
    replayMd dsets share disk np r m =
      if cutAt (bytesOf disk m) np (r + 1) < cutAt (bytesOf disk m) np r ∨ m.size < cutAt (bytesOf disk m) np (r + 1) then .err
      else parseL (replayDsets dsets) share (between (bytesOf disk m) (cutAt (bytesOf disk m) np r) (cutAt (bytesOf disk m) np (r + 1))) := by
  have hl := bytesOf_length disk m
  unfold replayMd
  rw [ends_bytes]
  simp only [read_bytes]
  rw [← hl] at hb hs ⊢
  generalize bytesOf disk m = b at *
  rw [if_neg (by omega), Res.ok_bind]
  have hne : (List.range (sectionsSaid b)).map (endSaid b) ≠ [] := by
    intro h
    have := congrArg List.length h
    simp at this
    omega
  rw [if_neg hne]
  have hlt : r * sectionsSaid b / np < (r + 1) * sectionsSaid b / np := firstSec_lt (nsec := sectionsSaid b) (by omega) hn
  have hle : (r + 1) * sectionsSaid b / np ≤ sectionsSaid b := by
    have := firstSec_mono (nsec := sectionsSaid b) (np := np) (show r + 1 ≤ np from hr)
    rwa [firstSec_end (by omega)] at this
  have hw : ∀ i, 0 < i → i ≤ sectionsSaid b → mapWord ((List.range (sectionsSaid b)).map (endSaid b)) i = .ok (endSaid b (i - 1)) := by
    intro i h1 h2
    unfold mapWord
    rw [if_neg (by omega), List.getElem?_map, List.getElem?_range (by omega)]
    rfl
  -- what is read of the two places
  have hS : ∃ w : Nat, low32 w = (if r * sectionsSaid b / np * 8 = 0 then low32 (8 * (sectionsSaid b + 1)) else
      low32 (endSaid b (r * sectionsSaid b / np - 1))) ∧ w % 2 ^ 32 = cutAt b np r := by
    unfold cutAt
    by_cases c : r * sectionsSaid b / np = 0
    · rw [if_pos (by omega), if_pos c]
      refine ⟨_, rfl, ?_⟩
      unfold bodyAt at hb ⊢
      omega
    · rw [if_neg (by omega), if_neg c]
      exact ⟨_, rfl, rfl⟩
  obtain ⟨w, hw1, hw2⟩ := hS
  have hE : endSaid b ((r + 1) * sectionsSaid b / np - 1) % 2 ^ 32 = cutAt b np (r + 1) := by
    unfold cutAt; rw [if_neg (by omega)]
  have hpart : replayPart ((List.range (sectionsSaid b)).map (endSaid b)) np r =
      .ok ⟨low32 w, low32 (endSaid b ((r + 1) * sectionsSaid b / np - 1)), 1, high32 (endSaid b ((r + 1) * sectionsSaid b / np - 1))⟩ := by
    unfold replayPart
    simp only [List.length_map, List.length_range]
    rw [Nat.mul_div_cancel _ (by decide : 0 < 8)]
    simp only [if_pos hn, hw _ (show 0 < (r + 1) * sectionsSaid b / np by omega) hle, hw1]
    by_cases c : r * sectionsSaid b / np = 0
    · rw [c]
      unfold mapWord
      simp only [Nat.zero_mul, if_true, Res.bind]
    · rw [hw _ (by omega) (by omega)]
      simp only [Res.bind]
  rw [hpart, Res.ok_bind]
  simp only
  rw [low32_cases w, low32_cases (endSaid b _), hw2, hE]
  have h1 : cutAt b np r < 2 ^ 32 := by rw [← hw2]; exact Nat.mod_lt _ (by omega)
  have h2 : cutAt b np (r + 1) < 2 ^ 32 := by rw [← hE]; exact Nat.mod_lt _ (by omega)
  generalize cutAt b np r = x at *
  generalize cutAt b np (r + 1) = y at *
  by_cases c1 : y < x ∨ b.length < y
  · rw [if_pos c1]
    by_cases d1 : x < 2 ^ 31
    · rw [if_pos d1]
      by_cases d2 : y < 2 ^ 31
      · rw [if_pos d2]
        by_cases d3 : y < x
        · rw [if_pos (show _ ∨ _ from .inr (by omega))]
        · rw [if_neg (by omega), if_neg (by omega)]; rfl
      · rw [if_neg d2, if_pos (show _ ∨ _ from .inr (by omega))]
    · rw [if_neg d1, if_pos (show _ ∨ _ from .inl (by omega))]
  · rw [if_neg c1, if_pos (show x < 2 ^ 31 by omega), if_pos (show y < 2 ^ 31 by omega), if_neg (by omega),
      show ((x : Nat) : Int).toNat = x by omega, show ((y : Int) - (x : Int)).toNat = y - x by omega, if_pos (by omega), Res.ok_bind]
    show (parseL (replayDsets dsets) share (between b x y)).bind _ = _
    cases parseL (replayDsets dsets) share (between b x y) with
    | err => rfl
    | ub => rfl
    | ok es =>
      show replayTake share _ es = _
      unfold replayTake
      by_cases ce : es = []
      · rw [if_pos ce, ce]
      · rw [if_neg ce, if_neg (show ¬ (1 : Int) = 0 by decide)]
        cases share
        · rfl
        · rw [if_pos rfl, replayShare_one]

theorem cutAt_first (b : List Byte) (np : Nat) : cutAt b np 0 = bodyAt b := by
  unfold cutAt; rw [Nat.zero_mul, Nat.zero_div, if_pos rfl]

theorem cutAt_last {b : List Byte} {np : Nat} (h0 : 0 < np) (hn : 0 < sectionsSaid b) : cutAt b np np = lastEnd b := by
  unfold cutAt lastEnd; rw [Nat.mul_div_cancel_left _ h0, if_neg (by omega)]

/-- **C101.** What one process of h5lreplay takes from a metadata dataset, whatever its table says: everything from the table to
where the last section ends; all other ends are ignored. -/
theorem C101_replay {disk : Mem} {m : Ext} (hb : bodyAt (bytesOf disk m) ≤ m.size) (hs : m.size < 2 ^ 31)
    (hn : 0 < sectionsSaid (bytesOf disk m)) (dsets : DSets) (share : Bool) :
    replayMd dsets share disk 1 0 m =
      if lastEnd (bytesOf disk m) < bodyAt (bytesOf disk m) ∨ m.size < lastEnd (bytesOf disk m) then .err
      else parseL (replayDsets dsets) share (between (bytesOf disk m) (bodyAt (bytesOf disk m)) (lastEnd (bytesOf disk m))) := by
  rw [C101_processes hb hs (by decide) hn, Nat.zero_add, cutAt_first, cutAt_last (by decide) hn]

theorem between_append {b : List Byte} {x y z : Nat} (h1 : x ≤ y) (h2 : y ≤ z) : between b x y ++ between b y z = between b x z := by
  unfold between
  rw [show z - x = (y - x) + (z - y) by omega, List.take_add, List.drop_drop, show x + (y - x) = y by omega]

/-- **C101.** If no process of h5lreplay fails, together they take every byte from the table to the end of the last section once and
in order, whatever the other ends are. -/
theorem C101_together {b : List Byte} {np : Nat} (h0 : 0 < np) (hn : np ≤ sectionsSaid b)
    (hok : ∀ r < np, cutAt b np r ≤ cutAt b np (r + 1)) :
    (List.range np).flatMap (fun r => between b (cutAt b np r) (cutAt b np (r + 1))) = between b (bodyAt b) (lastEnd b) := by
  have key : ∀ k ≤ np, cutAt b np 0 ≤ cutAt b np k ∧
      (List.range k).flatMap (fun r => between b (cutAt b np r) (cutAt b np (r + 1))) = between b (cutAt b np 0) (cutAt b np k) := by
    intro k
    induction k with
    | zero => intro _; exact ⟨Nat.le_refl _, by unfold between; rw [Nat.sub_self, List.take_zero]; rfl⟩
    | succ k ih =>
      intro hk
      obtain ⟨i1, i2⟩ := ih (by omega)
      have := hok k (by omega)
      refine ⟨by omega, ?_⟩
      rw [List.range_succ, List.flatMap_append, i2, List.flatMap_cons, List.flatMap_nil, List.append_nil, between_append i1 this]
  rw [(key np (Nat.le_refl _)).2, cutAt_first, cutAt_last h0 (by omega)]

/-- **C101, violated.** With several processes the place where a share ends matters: one inside an entry makes the process read beyond
its buffer. -/
theorem C101_share_violated {disk : Mem} {m : Ext} {np r : Nat} (hb : bodyAt (bytesOf disk m) ≤ m.size) (hs : m.size < 2 ^ 31)
    (hr : r < np) (hn : np ≤ sectionsSaid (bytesOf disk m)) {dsets : DSets} {share : Bool}
    (hin : cutAt (bytesOf disk m) np r ≤ cutAt (bytesOf disk m) np (r + 1) ∧ cutAt (bytesOf disk m) np (r + 1) ≤ m.size)
    {ps : List (List Byte)} {x : List Byte} (hps : WholeEntries ps) {es : List MEnt}
    (hp : parseL (replayDsets dsets) share ps.flatten = .ok es) (hx : x ≠ []) (hl : x.length < 28)
    (hg : x.length < 8 ∨ ¬ NamedGone (replayDsets dsets) x)
    (hsec : between (bytesOf disk m) (cutAt (bytesOf disk m) np r) (cutAt (bytesOf disk m) np (r + 1)) = ps.flatten ++ x) :
    replayMd dsets share disk np r m = .ub := by
  rw [C101_processes hb hs hr hn, if_neg (by omega), hsec]
  have h0 : (Idx.list []).parse (replayDsets dsets) share ps.flatten = .ok (.list es) := by
    unfold Idx.parse; simp only; rw [hp]; rfl
  have := C96_short_violated hps h0 hx hl hg
  unfold Idx.parse at this
  simp only at this
  cases h : parseL (replayDsets dsets) share (ps.flatten ++ x) with
  | ok v => rw [h] at this; cases this
  | err => rw [h] at this; cases this
  | ub => rfl

/-- **C101, violated.** Of the place where the last section ends h5lreplay reads four bytes only: one that is 4 GiB behind the
dataset is taken for one inside. -/
theorem C101_wrap_violated {disk disk' : Mem} {m : Ext} (hb : bodyAt (bytesOf disk m) ≤ m.size) (hs : m.size < 2 ^ 31)
    (hn : 0 < sectionsSaid (bytesOf disk m)) (h : SameBody (bytesOf disk m) (bytesOf disk' m))
    (he : endSaid (bytesOf disk' m) (sectionsSaid (bytesOf disk m) - 1) =
      endSaid (bytesOf disk m) (sectionsSaid (bytesOf disk m) - 1) + 2 ^ 32) (dsets : DSets) (share : Bool) :
    replayMd dsets share disk' 1 0 m = replayMd dsets share disk 1 0 m := by
  obtain ⟨_, _, h3, h4⟩ := h
  have hss : sectionsSaid (bytesOf disk' m) = sectionsSaid (bytesOf disk m) := by unfold sectionsSaid; rw [h3]
  have hbb : bodyAt (bytesOf disk' m) = bodyAt (bytesOf disk m) := by unfold bodyAt; rw [hss]
  have hle : lastEnd (bytesOf disk' m) = lastEnd (bytesOf disk m) := by
    unfold lastEnd
    rw [hss, he, Nat.add_mod_right]
  rw [C101_replay (by rw [hbb]; exact hb) hs (by rw [hss]; exact hn), C101_replay hb hs hn, hbb, hle]
  unfold between
  rw [h4]

/-! ### Cases -/

/-- How many entries h5ldump shows of the datasets of C99, and how many h5lreplay takes. -/
def tbShown (ends : List Nat) : Res Nat := do
  let l ← dumpMd [some dmD] (tbState true none ends).disk false (fun _ k => k) (tbExt ends)
  return l.flatten.length
def tbTaken (ends : List Nat) : Res Nat := do
  let l ← replayMd [some dmD] true (tbState true none ends).disk 1 0 (tbExt ends)
  return l.length

/-- How many entries each of two processes of h5lreplay takes. -/
def tbTaken2 (ends : List Nat) : List (Res Nat) := [0, 1].map fun r => do
  let l ← replayMd [some dmD] true (tbState true none ends).disk 2 r (tbExt ends)
  return l.length

/-- Two processes: both writes together for any end of the first section between two entries, failures and undefined behaviour for
others that one process ignores. -/
example : [[68, 112], [24, 112], [112, 112], [88, 112], [15, 112], [200, 112]].map tbTaken2 =
    [[.ok 1, .ok 1], [.ok 0, .ok 2], [.ok 2, .ok 0], [.ub, .ub], [.err, .ok 1], [.err, .err]] := by
  decide +kernel

/-- **C101, violated.** The writes of one metadata dataset: reads that load the metadata as a whole find both, whatever the table
says; with damaged tables h5ldump and h5lreplay show and take one, none, fail, or are undefined, not always in the same way. -/
theorem C101_lost_violated :
    ([[68, 112], [68, 68], [88, 112], [15], [200], [], [68, 112 + 2 ^ 32]].map (tbFound true none) = List.replicate 7 (.ok 2)) ∧
    ([[68, 112], [68, 68], [88, 112], [15], [200], [], [68, 112 + 2 ^ 32]].map tbShown =
      [.ok 2, .ok 1, .ub, .err, .err, .ok 0, .err]) ∧
    ([[68, 112], [68, 68], [88, 112], [15], [200], [], [68, 112 + 2 ^ 32]].map tbTaken =
      [.ok 2, .ok 1, .ok 2, .err, .err, .ok 0, .ok 2]) := by
  decide +kernel

/-- Hypotheses of `C101_refused`, `C101_behind_violated`, `C101_inside_violated`, `C101_replay`, `C101_processes`,
`C101_together`, `C101_share_violated` and `C101_wrap_violated`. -/
example : 0 < sectionsSaid (tbBytes [200]) ∧ ¬ Within (tbBytes [200]) 0 ∧ bodyAt (tbBytes [200]) ≤ (tbBytes [200]).length ∧
    (∀ k < 2, endSaid (tbBytes [68, 68]) k ≤ 68) ∧ sectionsSaid (tbBytes [68, 68]) = 2 ∧ bodyAt (tbBytes [68, 68]) ≤ 68 ∧
    Within (tbBytes [88, 112]) 0 ∧ between (tbBytes [88, 112]) (startSaid (tbBytes [88, 112]) 0) (endSaid (tbBytes [88, 112]) 0) =
      [dmP].flatten ++ dmP.take 20 ∧
    SameBody (tbBytes [68, 112]) (tbBytes [68, 112 + 2 ^ 32]) ∧
    (∀ r < 2, cutAt (tbBytes [68, 112]) 2 r < cutAt (tbBytes [68, 112]) 2 (r + 1)) ∧
    between (tbBytes [88, 112]) (cutAt (tbBytes [88, 112]) 2 0) (cutAt (tbBytes [88, 112]) 2 1) = [dmP].flatten ++ dmP.take 20 ∧
    endSaid (tbBytes [68, 112 + 2 ^ 32]) 1 = endSaid (tbBytes [68, 112]) 1 + 2 ^ 32 := by
  refine ⟨?_, ?_, ?_, ?_, ?_, ?_, ?_, ?_, ⟨?_, ?_, ?_, ?_⟩, ?_, ?_, ?_⟩ <;> decide +kernel

end Verif.Props
