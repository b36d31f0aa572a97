import Verif.Spec.Stack
import Verif.Props.Info
import Verif.Props.Conn

/-
C90: comparing connector information follows the rules of strcmp; copies, and information printed and read again, compare equal.
-/

namespace Verif.Props
open Verif.Conn Verif.Stack

theorem cmpVal_zero (a b : Nat) : cmpVal a b = 0 ↔ a = b := by
  unfold cmpVal
  split
  · constructor <;> intro h <;> omega
  · split
    · constructor <;> intro h <;> omega
    · constructor <;> intro h <;> omega

theorem cmpVal_neg (a b : Nat) : cmpVal a b < 0 ↔ a < b := by
  unfold cmpVal
  split
  · constructor <;> intro h <;> omega
  · split
    · constructor <;> intro h <;> omega
    · constructor <;> intro h <;> omega

/-- **C90, equality.** Information of one class with valid identifiers can be compared; the result is zero exactly if both stand for the same
connectors, in the same order, and the same information of the lowest one. -/
theorem C90_equal {L : Lib} (ho : L.Orders) : ∀ {k : Nat} {i j : CInfo} (v : Int), L.Of k i → L.Of k j →
    ∃ r, L.cmp (some k) v i j = .ok r ∧ (r = 0 ↔ L.stack i = L.stack j) := by
  intro k i
  induction i generalizing k with
  | null =>
    intro j v _ _
    cases j with
    | null => exact ⟨0, rfl, by simp⟩
    | own m => exact ⟨-1, rfl, by simp [Lib.stack]⟩
    | log d j => exact ⟨-1, rfl, by simp [Lib.stack]⟩
  | own n =>
    intro j v hi hj
    cases j with
    | null => exact ⟨1, rfl, by simp [Lib.stack]⟩
    | own m =>
      refine ⟨L.cmpOwn k n m, ?_, ?_⟩
      · rw [Lib.cmp, if_neg hi]
      · rw [ho.zero]
        simp [Lib.stack]
    | log d j => exact absurd hj.1 hi
  | log c i ih =>
    intro j v hi hj
    cases j with
    | null => exact ⟨1, rfl, by simp [Lib.stack]⟩
    | own m => exact absurd hi.1 hj
    | log d j =>
      obtain ⟨hk, a, ha, hi⟩ := hi
      obtain ⟨_, b, hb, hj⟩ := hj
      have hc : L.cmpCls v c d = cmpVal a b := by unfold Lib.cmpCls; rw [ha, hb]
      rw [Lib.cmp, if_neg (by simpa using hk), hc]
      by_cases h : a = b
      · subst h
        rw [if_pos ((cmpVal_zero a a).mpr rfl), ha]
        obtain ⟨r, e, hr⟩ := ih 0 hi hj
        refine ⟨r, e, ?_⟩
        rw [hr]
        simp only [Lib.stack, ha, hb]
        constructor
        · intro h; rw [h]
        · intro h
          simp only [Prod.mk.injEq, List.cons.injEq, true_and] at h
          exact Prod.ext h.1 h.2
      · have h0 : ¬ cmpVal a b = 0 := fun e => h ((cmpVal_zero a b).mp e)
        rw [if_neg h0]
        refine ⟨_, rfl, ?_⟩
        simp only [Lib.stack, ha, hb]
        constructor
        · exact fun e => absurd e h0
        · intro e
          simp only [Prod.mk.injEq, List.cons.injEq, Option.some.injEq] at e
          exact absurd e.1.1 h

/-- The first is less than the second. -/
def _root_.Verif.Stack.Lib.Less (L : Lib) (k : Nat) (v : Int) (i j : CInfo) : Prop := ∃ r, L.cmp (some k) v i j = .ok r ∧ r < 0

/-- What less means for two stacks. -/
theorem less_log {L : Lib} {k a b : Nat} {v : Int} {c d : Nat} {i j : CInfo} (hk : k = L.log) (ha : L.cls c = some a)
    (hb : L.cls d = some b) : L.Less k v (.log c i) (.log d j) ↔ a < b ∨ (a = b ∧ L.Less a 0 i j) := by
  have hc : L.cmpCls v c d = cmpVal a b := by unfold Lib.cmpCls; rw [ha, hb]
  unfold Lib.Less
  rw [Lib.cmp, if_neg (by simpa using hk), hc]
  by_cases h : a = b
  · subst h
    rw [if_pos ((cmpVal_zero a a).mpr rfl), ha]
    simp
  · rw [if_neg (fun e => h ((cmpVal_zero a b).mp e))]
    simp only [Res.ok.injEq, exists_eq_left', cmpVal_neg]
    constructor
    · exact .inl
    · rintro (h' | ⟨h', _⟩)
      · exact h'
      · exact absurd h' h

/-- **C90, order.** The sign follows the order of the arguments. -/
theorem C90_swap {L : Lib} (ho : L.Orders) : ∀ {k : Nat} {i j : CInfo} (v w : Int), L.Of k i → L.Of k j →
    ∃ r s, L.cmp (some k) v i j = .ok r ∧ L.cmp (some k) w j i = .ok s ∧ (r < 0 ↔ 0 < s) := by
  intro k i
  induction i generalizing k with
  | null =>
    intro j v w _ _
    cases j with
    | null => exact ⟨0, 0, rfl, rfl, by simp⟩
    | own m => exact ⟨-1, 1, rfl, rfl, by simp⟩
    | log d j => exact ⟨-1, 1, rfl, rfl, by simp⟩
  | own n =>
    intro j v w hi hj
    cases j with
    | null => exact ⟨1, -1, rfl, rfl, by simp⟩
    | own m =>
      refine ⟨L.cmpOwn k n m, L.cmpOwn k m n, ?_, ?_, ho.anti k n m⟩
      · rw [Lib.cmp, if_neg hi]
      · rw [Lib.cmp, if_neg hi]
    | log d j => exact absurd hj.1 hi
  | log c i ih =>
    intro j v w hi hj
    cases j with
    | null => exact ⟨1, -1, rfl, rfl, by simp⟩
    | own m => exact absurd hi.1 hj
    | log d j =>
      obtain ⟨hk, a, ha, hi⟩ := hi
      obtain ⟨_, b, hb, hj⟩ := hj
      have hc : L.cmpCls v c d = cmpVal a b := by unfold Lib.cmpCls; rw [ha, hb]
      have hc' : L.cmpCls w d c = cmpVal b a := by unfold Lib.cmpCls; rw [ha, hb]
      have hk' : ¬ k ≠ L.log := by simpa using hk
      simp only [Lib.cmp, if_neg hk', hc, hc']
      by_cases h : a = b
      · subst h
        rw [if_pos ((cmpVal_zero a a).mpr rfl), if_pos ((cmpVal_zero a a).mpr rfl), ha, hb]
        exact ih 0 0 hi hj
      · rw [if_neg (fun e => h ((cmpVal_zero a b).mp e)), if_neg (fun e => h ((cmpVal_zero b a).mp e).symm)]
        refine ⟨_, _, rfl, rfl, ?_⟩
        rw [cmpVal_neg]
        unfold cmpVal
        split
        · constructor <;> intro h <;> omega
        · split
          · constructor <;> intro h <;> omega
          · constructor <;> intro h <;> omega

/-- **C90, order.** Less is transitive. -/
theorem C90_trans {L : Lib} (ho : L.Orders) : ∀ {k : Nat} {i j p : CInfo} (v : Int), L.Of k i → L.Of k j → L.Of k p →
    L.Less k v i j → L.Less k v j p → L.Less k v i p := by
  intro k i
  induction i generalizing k with
  | null =>
    intro j p v _ hj hp h1 h2
    cases p with
    | own _ => exact ⟨-1, rfl, by decide⟩
    | log _ _ => exact ⟨-1, rfl, by decide⟩
    | null =>
      exfalso
      obtain ⟨r, e, hr⟩ := h2
      cases j <;> simp only [Lib.cmp, Res.ok.injEq] at e <;> omega
  | own n =>
    intro j p v hi hj hp h1 h2
    cases j with
    | null =>
      obtain ⟨r, e, hr⟩ := h1
      simp only [Lib.cmp, Res.ok.injEq] at e
      omega
    | log d j => exact absurd hj.1 hi
    | own m =>
      cases p with
      | null =>
        obtain ⟨r, e, hr⟩ := h2
        simp only [Lib.cmp, Res.ok.injEq] at e
        omega
      | log d p => exact absurd hp.1 hi
      | own q =>
        unfold Lib.Less at h1 h2 ⊢
        simp only [Lib.cmp, if_neg hi, Res.ok.injEq, exists_eq_left'] at h1 h2 ⊢
        exact ho.trans k n m q h1 h2
  | log c i ih =>
    intro j p v hi hj hp h1 h2
    cases j with
    | null =>
      obtain ⟨r, e, hr⟩ := h1
      simp only [Lib.cmp, Res.ok.injEq] at e
      omega
    | own m => exact absurd hi.1 hj
    | log d j =>
      cases p with
      | null =>
        obtain ⟨r, e, hr⟩ := h2
        simp only [Lib.cmp, Res.ok.injEq] at e
        omega
      | own q => exact absurd hi.1 hp
      | log e p =>
        obtain ⟨hk, a, ha, hi⟩ := hi
        obtain ⟨_, b, hb, hj⟩ := hj
        obtain ⟨_, g, hg, hp⟩ := hp
        rw [less_log hk ha hb] at h1
        rw [less_log hk hb hg] at h2
        rw [less_log hk ha hg]
        rcases h1 with h1 | ⟨h1, h1'⟩ <;> rcases h2 with h2 | ⟨h2, h2'⟩
        · exact .inl (by omega)
        · exact .inl (by omega)
        · exact .inl (by omega)
        · subst h1 h2
          exact .inr ⟨rfl, ih 0 hi hj hp h1' h2'⟩

/-- **C90, copies.** A copy, as H5Pget_vol_info and H5Pcopy make it, compares equal to the original as long as the identifiers are
valid. -/
theorem C90_copy {L : Lib} (ho : L.Orders) {k : Nat} {i : CInfo} (v : Int) (h : L.Of k i) {l : Led}
    (hl : ∀ c ∈ i.ids, 0 < l.refs c) :
    L.Of k (copyInfo i l).1 ∧ L.cmp (some k) v i (copyInfo i l).1 = .ok 0 := by
  have hv : ∀ (i : CInfo) (c : Nat), 0 < i.holds c → c ∈ i.ids := by
    intro i
    induction i with
    | null => intro c h; simp [CInfo.holds] at h
    | own n => intro c h; simp [CInfo.holds] at h
    | log d i ih =>
      intro c h
      simp only [CInfo.holds] at h
      simp only [CInfo.ids, List.mem_cons]
      by_cases hd : c = d
      · exact .inl hd
      · rw [if_neg hd] at h
        exact .inr (ih c (by omega))
  have e : (copyInfo i l).1 = i := by rw [copyInfo_eq i (fun c hc => hl c (hv i c hc))]
  rw [e]
  obtain ⟨r, e, hr⟩ := C90_equal ho v h h
  exact ⟨h, by rw [e, hr.mpr rfl]⟩

/-- **C90, text (partial).** Information in which all classes have values below ten million is printed through all connectors of the stack, and
what is read from the text compares equal. -/
theorem C90_text_partial {L : Lib} (hf : L.Finds) :
    ∀ {k : Nat} {i : CInfo}, L.Of k i → L.Printable k i → i ≠ .null →
    ∃ t j, L.toText (some k) i = .ok (some t) ∧ t ≠ [] ∧ (∀ fuel > depth i, L.ofText fuel k t = .ok j) ∧ L.Of k j ∧
      L.stack j = L.stack i := by
  intro k i
  induction i generalizing k with
  | null => intro _ _ h; exact absurd rfl h
  | own n =>
    intro hi hp _
    obtain ⟨s, e1, e2, e3⟩ := hp
    refine ⟨s, .own n, ?_, e2, ?_, hi, rfl⟩
    · rw [Lib.toText, if_neg hi, e1]
    · intro fuel hfu
      obtain ⟨f, rfl⟩ : ∃ f, fuel = f + 1 := ⟨fuel - 1, by omega⟩
      rw [Lib.ofText, if_neg hi, e3]
      rfl
  | log c i ih =>
    intro hi hp _
    obtain ⟨hk, a, ha, hi⟩ := hi
    obtain ⟨a', ha', hv, hp⟩ := hp
    rw [ha] at ha'
    cases ha'
    obtain ⟨d, hd, hda⟩ := hf c a ha
    by_cases hn : i = .null
    · subst hn
      obtain ⟨t, t1, t2⟩ := C46_roundtrip_partial a hv none
      simp only [Option.getD_none, if_true] at t2
      refine ⟨t, .log d .null, ?_, ?_, ?_, ⟨hk, a, hda, trivial⟩, by simp [Lib.stack, ha, hda]⟩
      · rw [Lib.toText, if_neg (by simpa using hk), ha]
        simp only [Lib.toText, Res.ok_bind, Option.getD_some, t1]
        rfl
      · rintro rfl
        simp [strToInfo, scanValue] at t2
      · intro fuel hfu
        obtain ⟨f, rfl⟩ : ∃ f, fuel = f + 1 := ⟨fuel - 1, by omega⟩
        rw [Lib.ofText, if_pos hk, t2]
        simp only [Res.ok_bind, hd, hda]
        rfl
    · obtain ⟨s, j, s1, s2, s3, s4, s5⟩ := ih hi hp hn
      obtain ⟨t, t1, t2⟩ := C46_roundtrip_partial a hv (some s)
      simp only [Option.getD_some, if_neg s2] at t2
      refine ⟨t, .log d j, ?_, ?_, ?_, ⟨hk, a, hda, s4⟩, by simp [Lib.stack, ha, hda, s5]⟩
      · rw [Lib.toText, if_neg (by simpa using hk), ha]
        simp only [s1, Res.ok_bind, Option.getD_some, t1]
        rfl
      · rintro rfl
        simp [strToInfo, scanValue] at t2
      · intro fuel hfu
        obtain ⟨f, rfl⟩ : ∃ f, fuel = f + 1 := ⟨fuel - 1, by omega⟩
        rw [Lib.ofText, if_pos hk, t2]
        simp only [Res.ok_bind, hd, hda]
        rw [s3 f (by simp only [depth] at hfu; omega)]
        rfl

/-- **C90, text in another application (partial).** The text of information is read in another application: if no connector there has the value of the
connector below, the reading fails; if there is one that does not read its part of the text, the reading succeeds with no information for
it. -/
theorem C90_foreign_partial {L M : Lib} {c v : Nat} {i : CInfo} (hv : L.cls c = some v) (hv7 : v < 10000000)
    {s : Option Name} (hs : L.toText (some v) i = .ok s) :
    ∃ t, L.toText (some L.log) (.log c i) = .ok (some t) ∧
      (M.find v = none → ∀ fuel > 0, M.ofText fuel M.log t = .err) ∧
      ∀ d, M.find v = some d → M.cls d = some v → v ≠ M.log → (∀ x, s = some x → M.parse v x = none) →
        ∀ fuel > 1, M.ofText fuel M.log t = .ok (.log d .null) := by
  obtain ⟨t, t1, t2⟩ := C46_roundtrip_partial v hv7 s
  refine ⟨t, ?_, fun hn fuel hfu => ?_, fun d hd hc hl hp fuel hfu => ?_⟩
  · rw [Lib.toText, if_neg (by simp), hv]
    simp only [hs, Res.ok_bind, Option.getD_some, t1]
    rfl
  · obtain ⟨f, rfl⟩ : ∃ f, fuel = f + 1 := ⟨fuel - 1, by omega⟩
    rw [Lib.ofText, if_pos rfl, t2]
    simp only [Res.ok_bind, hn]
  · obtain ⟨f, rfl⟩ : ∃ f, fuel = f + 2 := ⟨fuel - 2, by omega⟩
    rw [Lib.ofText, if_pos rfl, t2]
    simp only [Res.ok_bind, hd, hc]
    cases s with
    | none => rfl
    | some x =>
      simp only [Option.getD_some]
      by_cases hx : x = []
      · simp only [hx, if_true]; rfl
      · simp only [if_neg hx]
        rw [Lib.ofText, if_neg hl, hp x rfl]
        rfl

/-- Printing is undefined exactly if a connector of the stack is unprintable. -/
theorem toText_iff {L : Lib} : ∀ {k : Nat} {i : CInfo}, L.Typed k i →
    (L.Unprintable i → L.toText (some k) i = .ub) ∧ (¬ L.Unprintable i → ∃ t, L.toText (some k) i = .ok t) := by
  intro k i
  induction i generalizing k with
  | null => exact fun _ => ⟨fun h => h.elim, fun _ => ⟨none, rfl⟩⟩
  | own n =>
    intro h
    refine ⟨fun h => h.elim, fun _ => ⟨L.text k n, ?_⟩⟩
    rw [Lib.toText, if_neg h]
  | log c i ih =>
    rintro ⟨hk, ht⟩
    rw [Lib.toText, if_neg (by simpa using hk)]
    cases hc : L.cls c with
    | none =>
      simp only [Lib.toText, Res.ok_bind, Option.getD_none, Lib.Unprintable, hc, true_or, forall_const, not_true_eq_false,
        false_implies, and_true]
      rw [C46_buffer_violated _ (by decide)]
      rfl
    | some a =>
      obtain ⟨h1, h2⟩ := ih (ht a hc)
      simp only [Lib.Unprintable, hc, reduceCtorEq, false_or, Option.some.injEq, exists_eq_left', Option.getD_some]
      by_cases hu : L.Unprintable i
      · rw [h1 hu]
        exact ⟨fun _ => rfl, fun h => absurd (.inr hu) h⟩
      · obtain ⟨t, e⟩ := h2 hu
        rw [e, Res.ok_bind]
        by_cases ha : 10000000 ≤ a
        · rw [C46_buffer_violated a ha]
          exact ⟨fun _ => rfl, fun h => absurd (.inl ha) h⟩
        · obtain ⟨u, e, _⟩ := C46_roundtrip_partial a (by omega) t
          rw [e]
          exact ⟨fun h => (h.elim ha hu).elim, fun _ => ⟨some u, rfl⟩⟩

/-- **C90 is violated: text.** If one class anywhere in the stack has a value of eight digits or more, or one identifier is no longer valid
(the connector has been unregistered), printing is undefined; only then. -/
theorem C90_text_violated {L : Lib} {k : Nat} {i : CInfo} (h : L.Typed k i) : L.toText (some k) i = .ub ↔ L.Unprintable i := by
  obtain ⟨h1, h2⟩ := toText_iff h
  refine ⟨fun e => Classical.byContradiction (fun hu => ?_), h1⟩
  obtain ⟨t, e'⟩ := h2 hu
  rw [e] at e'
  cases e'

/-- **C90 is violated: comparison.** Information whose connector is no longer valid is reported equal to any other (the caller's variable is
zero at first, H5Pequal), without failure; whatever the variable holds is returned. -/
theorem C90_stale_violated {L : Lib} (c d : Nat) (i j : CInfo) (h : L.cls c = none ∨ L.cls d = none) (v : Int) (hv : v ≠ 0) :
    (L.cls c = none → L.cmp (some L.log) 0 (.log c i) (.log d j) = .ok 0) ∧ L.cmp (some L.log) v (.log c i) (.log d j) = .ok v := by
  have hc : ∀ w, L.cmpCls w c d = w := by
    intro w
    unfold Lib.cmpCls
    rcases h with h | h
    · rw [h]
    · rw [h]
      cases L.cls c <;> rfl
  constructor
  · intro h0
    rw [Lib.cmp, if_neg (by simp), hc, if_pos rfl, h0]
    simp only [Lib.cmp]
  · rw [Lib.cmp, if_neg (by simp), hc, if_neg hv]

/-! ### Cases that meet the conditions -/

/-- The native connector (class 0, identifier 0), the log-based one (class 514, identifiers 1 and 2), another one (class 512, identifier 3)
with numbers as information. -/
def skLib : Lib where
  cls c := if c = 0 then some 0 else if c = 1 ∨ c = 2 then some 514 else if c = 3 then some 512 else none
  log := 514
  cmpOwn _ n m := (n : Int) - m
  text _ n := some (digits n)
  parse _ s := some (readDigits s)
  find v := if v = 0 then some 0 else if v = 514 then some 1 else if v = 512 then some 3 else none

/-- The log-based connector over the log-based one over the third one. -/
def skInfo : CInfo := .log 2 (.log 3 (.own 7))

example : skLib.Orders := by
  refine ⟨?_, ?_, ?_⟩
  · intro k n m; show (n : Int) - m = 0 ↔ n = m; omega
  · intro k n m; show (n : Int) - m < 0 ↔ 0 < (m : Int) - n; omega
  · intro k n m p; show (n : Int) - m < 0 → (m : Int) - p < 0 → (n : Int) - p < 0; omega

example : skLib.Finds := by
  intro c v h
  simp only [skLib] at h ⊢
  split at h
  · cases h; exact ⟨0, by simp⟩
  · split at h
    · cases h; exact ⟨1, by simp⟩
    · split at h
      · cases h; exact ⟨3, by simp⟩
      · cases h

example : skLib.Of 514 skInfo ∧ skLib.Printable 514 skInfo ∧ skLib.Typed 514 skInfo ∧ ¬ skLib.Unprintable skInfo := by
  refine ⟨⟨rfl, 514, rfl, rfl, 512, rfl, (by show 512 ≠ 514; decide)⟩, ⟨514, rfl, by decide, 512, rfl, by decide, digits 7, rfl, by decide, by decide⟩,
    ⟨rfl, fun a ha => ?_⟩, ?_⟩
  · cases ha
    refine ⟨rfl, fun b hb => ?_⟩
    cases hb
    show 512 ≠ 514
    decide
  · simp [skInfo, skLib, Lib.Unprintable]

/-- Another identifier of the same class, and another stack. -/
example : skLib.cmp (some 514) 5 skInfo (.log 1 (.log 3 (.own 7))) = .ok 0 ∧
    skLib.cmp (some 514) 5 skInfo (.log 1 (.log 3 (.own 8))) = .ok (-1) ∧
    skLib.cmp (some 514) 5 skInfo (.log 1 (.log 0 .null)) = .ok 1 := by decide

example : skLib.toText (some 514) skInfo = .ok (some "under_vol=514;under_info={under_vol=512;under_info={7}}".toList) ∧
    skLib.ofText 3 514 "under_vol=514;under_info={under_vol=512;under_info={7}}".toList = .ok (.log 1 (.log 3 (.own 7))) := by
  decide

/-- Hypotheses of `C90_foreign_partial`: an application without the lower connector, and one whose connector reads no information. -/
example : skLib.cls 3 = some 512 ∧ 512 < 10000000 ∧ skLib.toText (some 512) (.own 7) = .ok (some (digits 7)) ∧
    { skLib with find := fun _ => none }.find 512 = none ∧
    { skLib with parse := fun _ _ => none }.find 512 = some 3 ∧ { skLib with parse := fun _ _ => none }.cls 3 = some 512 ∧
    512 ≠ skLib.log ∧ ∀ x, some (digits 7) = some x → { skLib with parse := fun _ _ => none }.parse 512 x = none := by
  refine ⟨rfl, by decide, rfl, rfl, rfl, rfl, by decide, fun _ _ => rfl⟩

example : skLib.Typed 514 (.log 2 (.log 9 (.own 7))) ∧ skLib.Unprintable (.log 2 (.log 9 (.own 7))) := by
  refine ⟨⟨rfl, fun a ha => ?_⟩, by simp [skLib, Lib.Unprintable]⟩
  cases ha
  exact ⟨rfl, fun b hb => by cases hb⟩

end Verif.Props
