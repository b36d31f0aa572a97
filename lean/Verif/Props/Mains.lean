import Verif.Model.Mains

/-
C92: the tools change what they are asked to change, and their exit status says whether they did what they were asked.
-/

namespace Verif.Props
open _root_.Verif.Mains

variable {κ τ : Type}

/-- The paths a call of h5lreplay names: the last `-i` and the last `-o`, and no other option. -/
def Asks (opts : List ROpt) (inp out : Name) : Prop :=
  ROpt.other ∉ opts ∧
  (opts.filterMap (fun x => match x with | .i p => some p | _ => none)).getLast? = some inp ∧
  (opts.filterMap (fun x => match x with | .o p => some p | _ => none)).getLast? = some out

/-- The file at `p` can be opened and has the contents `c`. -/
def Opens (L : Lib κ τ) (fs : Files κ) (p : Name) (c : κ) : Prop := fs p = some c ∧ L.opens c = true

/-- The file at `p` begins with the signature of HDF5. -/
def Signed (L : Lib κ τ) (fs : Files κ) (p : Name) : Prop := ∃ c, fs p = some c ∧ hdf5Sig <+: L.first c

theorem replayOpts_eq (opts : List ROpt) (h : ROpt.other ∉ opts) (s : Name × Name) :
    replayOpts s opts = some
      ((opts.filterMap (fun x => match x with | .i p => some p | _ => none)).getLast?.getD s.1,
       (opts.filterMap (fun x => match x with | .o p => some p | _ => none)).getLast?.getD s.2) := by
  induction opts generalizing s with
  | nil => rfl
  | cons x r ih =>
    have hr : ROpt.other ∉ r := fun m => h (List.mem_cons_of_mem _ m)
    cases x with
    | i p =>
      rw [replayOpts, ih hr]
      simp only [List.filterMap_cons, List.getLast?_cons, Option.getD_some]
    | o p =>
      rw [replayOpts, ih hr]
      simp only [List.filterMap_cons, List.getLast?_cons, Option.getD_some]
    | other => exact absurd List.mem_cons_self h

theorem Asks.opts {opts : List ROpt} {inp out : Name} (h : Asks opts inp out) : replayOpts ([], []) opts = some (inp, out) := by
  rw [replayOpts_eq opts h.1, h.2.1, h.2.2]
  rfl

theorem replayCheck_iff (L : Lib κ τ) (fs : Files κ) (p : Name) : replayCheck L fs p = true ↔ Signed L fs p := by
  unfold replayCheck Signed
  cases hf : fs p with
  | none => simp
  | some c =>
    simp only [decide_eq_true_eq, Option.some.injEq, exists_eq_left']
    have hl : hdf5Sig.length = 8 := rfl
    constructor
    · intro h
      by_cases hc : 8 ≤ (L.first c).length
      · rw [List.take_append_of_le_length hc] at h
        exact ⟨(L.first c).drop 8, by rw [← h, List.take_append_drop]⟩
      · exfalso
        have e : ((L.first c ++ List.replicate 8 0).take 8)[7]? = some 0 := by
          rw [List.getElem?_take_of_lt (by omega), List.getElem?_append_right (by omega), List.getElem?_replicate, if_pos (by omega)]
        rw [h] at e
        exact absurd e (by decide)
    · rintro ⟨t, ht⟩
      rw [← ht, List.append_assoc, List.take_append_of_le_length (Nat.le_of_eq hl.symm)]
      rfl

/-- **C92, success of h5lreplay.** A call that names an input and an output ends with status 0 exactly if the input is another file, begins
with the signature, can be opened and is replayed completely, and the output can be created.  Then the output is the replayed file and
no other file has changed.  For one path given twice this needs a library that does not truncate files that are open. -/
theorem C92_replay (L : Lib κ τ) (may : Name → Bool) (fs : Files κ) {opts : List ROpt} {inp out : Name} (h : Asks opts inp out)
    (hg : inp ≠ out ∨ L.refuses = true) :
    ((replayMain L may fs opts).1 = 0 ↔
      may out = true ∧ inp ≠ out ∧ Signed L fs inp ∧ ∃ c, Opens L fs inp c ∧ (L.copy c).1 = true) ∧
    ((replayMain L may fs opts).1 = 0 → ∃ c, Opens L fs inp c ∧ (replayMain L may fs opts).2 out = some (L.copy c).2 ∧
      ∀ q, q ≠ out → (replayMain L may fs opts).2 q = fs q) := by
  have hs := replayCheck_iff L fs inp
  unfold replayMain
  rw [h.opts]
  simp only [replayCore]
  have hs' : ∀ b : Bool, (if b && replayCheck L fs inp then (0 : Int) else -1) = 0 ↔ b = true ∧ Signed L fs inp := by
    intro b
    rw [← hs]
    cases b <;> cases replayCheck L fs inp <;> simp
  by_cases hO : ∃ c, Opens L fs inp c
  · obtain ⟨c, hf, ho⟩ := hO
    have hU : ∀ x, Opens L fs inp x → x = c := by
      rintro x ⟨hx, _⟩
      rw [hf] at hx
      exact (Option.some.inj hx).symm
    simp only [hf, Option.any_some, ho, true_and, Option.filter_some, if_true, hs']
    have hio : (inp = out ∧ L.refuses = true) = (inp = out) := by
      apply propext
      constructor
      · exact fun x => x.1
      · intro e
        rcases hg with hg | hg
        · exact absurd e hg
        · exact ⟨e, hg⟩
    simp only [hio]
    by_cases hm : may out = false ∨ inp = out
    · simp only [if_pos hm, Bool.false_eq_true, false_and, false_iff, false_imp_iff, and_true]
      rintro ⟨a, b, _⟩
      rcases hm with hm | hm
      · rw [hm] at a; simp at a
      · exact b hm
    · have h1 : may out = true := by
        cases hx : may out with
        | true => rfl
        | false => exact absurd (Or.inl hx) hm
      have h2 : inp ≠ out := fun e => hm (Or.inr e)
      simp only [if_neg hm, if_neg h2]
      refine ⟨⟨fun ⟨a, b⟩ => ⟨h1, h2, b, c, ⟨hf, ho⟩, a⟩, ?_⟩, ?_⟩
      · rintro ⟨_, _, b, x, hx, hc⟩
        rw [hU x hx] at hc
        exact ⟨hc, b⟩
      · intro _
        refine ⟨c, ⟨hf, ho⟩, ?_, ?_⟩
        · simp [Files.put]
        · intro q hq
          simp [Files.put, hq]
  · have e1 : (fs inp).any L.opens = false := by
      cases hf : fs inp with
      | none => rfl
      | some c =>
        cases hc : L.opens c with
        | false => simp [hc]
        | true => exact absurd ⟨c, hf, hc⟩ hO
    have e2 : (fs inp).filter L.opens = none := by
      cases hf : fs inp with
      | none => rfl
      | some c => rw [hf] at e1; simpa using e1
    simp only [e1, e2, hs']
    have : ¬ ∃ c, Opens L fs inp c ∧ (L.copy c).1 = true := fun ⟨c, hc, _⟩ => hO ⟨c, hc⟩
    simp only [this, and_false, iff_false]
    split <;> simp

/-- **C92, other files.** Whatever happens, h5lreplay changes no file but the one it is asked to write, and none if it prints the usage. -/
theorem C92_others (L : Lib κ τ) (may : Name → Bool) (fs : Files κ) :
    (∀ opts inp out, Asks opts inp out → ∀ q, q ≠ out → (replayMain L may fs opts).2 q = fs q) ∧
    (∀ opts, ROpt.other ∈ opts → replayMain L may fs opts = (0, fs)) := by
  constructor
  · intro opts inp out h q hq
    unfold replayMain
    rw [h.opts]
    simp only [replayCore]
    split
    · rfl
    · split <;> simp [Files.put, hq]
  · intro opts h
    have : ∀ (l : List ROpt) s, ROpt.other ∈ l → replayOpts s l = none := by
      intro l
      induction l with
      | nil => intro s h; exact absurd h List.not_mem_nil
      | cons x r ih =>
        intro s h
        cases x with
        | i p => exact ih _ (by simpa using h)
        | o p => exact ih _ (by simpa using h)
        | other => rfl
    unfold replayMain
    rw [this opts _ h]

/-- **C92 is violated: failing calls.** If the input cannot be opened (it does not exist, or is no HDF5 file), the call fails, but only after
it has replaced the output, whatever that was, by an empty file.  This includes `-i p -o p` for a file `p` that is not an HDF5 file. -/
theorem C92_lost_violated (L : Lib κ τ) (may : Name → Bool) (fs : Files κ) {opts : List ROpt} {inp out : Name} (h : Asks opts inp out)
    (hm : may out = true) (hi : ¬ ∃ c, Opens L fs inp c) : replayMain L may fs opts = (-1, fs.put out L.fresh) := by
  have e1 : (fs inp).any L.opens = false := by
    cases hf : fs inp with
    | none => rfl
    | some c =>
      cases hc : L.opens c with
      | false => simp [hc]
      | true => exact absurd ⟨c, hf, hc⟩ hi
  have e2 : (fs inp).filter L.opens = none := by
    cases hf : fs inp with
    | none => rfl
    | some c => rw [hf] at e1; simpa using e1
  unfold replayMain
  rw [h.opts]
  simp [replayCore, e1, e2, hm]

/-- **C92 is violated: inputs that cannot be replayed.** If the input can be opened but not replayed (it is an ordinary HDF5 file, for example),
the output is lost as well. -/
theorem C92_incomplete_violated (L : Lib κ τ) (may : Name → Bool) (fs : Files κ) {opts : List ROpt} {inp out : Name} (h : Asks opts inp out)
    (hm : may out = true) (hne : inp ≠ out) {c : κ} (hc : Opens L fs inp c) (hcopy : (L.copy c).1 = false) :
    (replayMain L may fs opts).1 = -1 ∧ (replayMain L may fs opts).2 out = some (L.copy c).2 := by
  unfold replayMain
  rw [h.opts]
  have e2 : (fs inp).filter L.opens = some c := by rw [hc.1, Option.filter_some, if_pos hc.2]
  simp [replayCore, e2, hm, hne, hcopy, Files.put]

/-- **C92 is violated: success reported as failure.** An input that does not begin with the signature (HDF5 files with a user block begin with the
user block) is replayed as any other, and the call fails even if the output is complete. -/
theorem C92_block_violated (L : Lib κ τ) (may : Name → Bool) (fs : Files κ) {opts : List ROpt} {inp out : Name} (h : Asks opts inp out)
    (hm : may out = true) (hne : inp ≠ out) {c : κ} (hc : Opens L fs inp c) (hsig : ¬ Signed L fs inp) :
    (replayMain L may fs opts).1 = -1 ∧ (replayMain L may fs opts).2 out = some (L.copy c).2 := by
  have hk : replayCheck L fs inp = false := by
    cases hx : replayCheck L fs inp with
    | false => rfl
    | true => exact absurd ((replayCheck_iff L fs inp).mp hx) hsig
  unfold replayMain
  rw [h.opts]
  have e2 : (fs inp).filter L.opens = some c := by rw [hc.1, Option.filter_some, if_pos hc.2]
  simp [replayCore, e2, hm, hne, hk, Files.put]

/-- **C92, h5ldump.** One process, a file, no `-k` and no wrong option: the status is 0 exactly if the file begins with the signature, can be
opened, has the attribute of the connector, and is dumped completely; then the text is that of the dump and nothing else. -/
theorem C92_dump (L : Lib κ τ) (fs : Files κ) {opts : List DOpt} (p : Name) (h1 : DOpt.other ∉ opts) (h2 : DOpt.kind ∉ opts) :
    ((dumpMain L fs 1 opts (some p)).1 = 0 ↔
      Signed L fs p ∧ ∃ c, Opens L fs p c ∧ L.islog c = true ∧ (L.dump (decide (DOpt.header ∉ opts)) c).1 = true) ∧
    ((dumpMain L fs 1 opts (some p)).1 = 0 → ∃ c, fs p = some c ∧
      (dumpMain L fs 1 opts (some p)).2 = [.body (L.dump (decide (DOpt.header ∉ opts)) c).2]) := by
  have hs := replayCheck_iff L fs p
  unfold dumpMain
  simp only [Nat.lt_irrefl, if_false, h1, h2, decide_false, dumpRun, Bool.false_eq_true]
  cases hf : fs p with
  | none =>
    simp only [signature, dumpBody, Bool.and_false, Bool.false_eq_true, if_false, Option.isNone_none]
    have : ¬ Signed L fs p := by
      rintro ⟨c, hc, _⟩
      rw [hf] at hc
      simp at hc
    simp [this]
  | some c =>
    have hO : ∀ x, Opens L fs p x ↔ x = c ∧ L.opens c = true := by
      intro x
      unfold Opens
      rw [hf]
      simp only [Option.some.injEq]
      constructor
      · rintro ⟨rfl, h⟩; exact ⟨rfl, h⟩
      · rintro ⟨rfl, h⟩; exact ⟨rfl, h⟩
    have hS : Signed L fs p ↔ (L.first c ++ List.replicate 8 0).take 8 = hdf5Sig := by
      rw [← hs]
      simp [replayCheck, hf]
    have hex : (∃ x, Opens L fs p x ∧ L.islog x = true ∧ (L.dump (decide (DOpt.header ∉ opts)) x).1 = true) ↔
        L.opens c = true ∧ L.islog c = true ∧ (L.dump (decide (DOpt.header ∉ opts)) c).1 = true := by
      constructor
      · rintro ⟨x, hx, h⟩
        obtain ⟨rfl, h'⟩ := (hO x).mp hx
        exact ⟨h', h⟩
      · rintro ⟨h, h'⟩
        exact ⟨c, (hO c).mpr ⟨rfl, h⟩, h'⟩
    rw [hS, hex]
    simp only [signature, dumpBody, Option.isNone_some, Bool.false_eq_true, if_false, List.nil_append]
    by_cases hsig : (L.first c ++ List.replicate 8 0).take 8 = hdf5Sig
    · cases ho : L.opens c with
      | false => simp [-List.reduceReplicate, hsig]
      | true =>
        have hk : fileKind (L.first c) (L.islog c) (L.isnc c) = .logVol ↔ L.islog c = true := by
          unfold fileKind
          simp only [hsig, if_true]
          cases L.islog c <;> cases L.isnc c <;> simp
        cases hl : L.islog c with
        | false =>
          have hk' : fileKind (L.first c) false (L.isnc c) ≠ .logVol := by
            rw [hl] at hk
            simp [hk]
          simp [-List.reduceReplicate, hsig, hk']
        | true =>
          have hk' : fileKind (L.first c) true (L.isnc c) = .logVol := by
            rw [hl] at hk
            exact hk.mpr rfl
          simp [-List.reduceReplicate, hsig, hk']
    · have hk' : fileKind (L.first c) (L.islog c) (L.isnc c) ≠ .logVol := by
        unfold fileKind
        simp only [hsig, if_false]
        split
        · split
          · simp
          · split
            · simp
            · split <;> simp
        · simp
      simp [-List.reduceReplicate, hsig, hk']

/-- **C92 is violated: h5ldump with several processes** ends with status 0 and has printed nothing of the file. -/
theorem C92_several_violated (L : Lib κ τ) (fs : Files κ) {np : Nat} (h : 1 < np) (opts : List DOpt) (p : Name) :
    dumpMain L fs np opts (some p) = (0, [.warning]) := by
  unfold dumpMain
  rw [if_pos h]

/-- **C92 is violated: h5ldump -k** of a file that does not exist ends with status 0. -/
theorem C92_missing_violated (L : Lib κ τ) (fs : Files κ) {opts : List DOpt} {p : Name} (h1 : DOpt.other ∉ opts) (h2 : DOpt.kind ∈ opts)
    (hp : fs p = none) : dumpMain L fs 1 opts (some p) = (0, [.cannotOpen, .kind .unknown]) := by
  unfold dumpMain
  simp [h1, h2, hp, dumpRun, signature]

/-- **C92 is violated: h5ldump of files with a user block.** The file is said not to be of the connector, is dumped completely, and the status
is -1. -/
theorem C92_dump_block_violated (L : Lib κ τ) (fs : Files κ) {opts : List DOpt} {p : Name} (h1 : DOpt.other ∉ opts) (h2 : DOpt.kind ∉ opts)
    {c : κ} (hc : Opens L fs p c) (hn : ∀ t, L.first c ≠ hdf5Sig ++ t) (hnc : ∀ t, L.first c ≠ ncSig ++ t) :
    dumpMain L fs 1 opts (some p) = (-1, [.notLog .unknown, .body (L.dump (decide (DOpt.header ∉ opts)) c).2]) := by
  have hsig : (L.first c ++ List.replicate 8 0).take 8 ≠ hdf5Sig := by
    intro e
    have : replayCheck L fs p = true := by simp [-List.reduceReplicate, replayCheck, hc.1, e]
    obtain ⟨x, hx, t, ht⟩ := (replayCheck_iff L fs p).mp this
    rw [hc.1] at hx
    simp only [Option.some.injEq] at hx
    subst hx
    exact hn t ht.symm
  have hsn : ((L.first c ++ List.replicate 8 0).take 8).take 3 ≠ ncSig := by
    intro e
    rw [List.take_take] at e
    by_cases h3 : 3 ≤ (L.first c).length
    · rw [List.take_append_of_le_length (by omega)] at e
      exact hnc ((L.first c).drop 3) (by rw [← e]; simp)
    · have e2 : ((L.first c ++ List.replicate 8 0).take (min 3 8))[2]? = some 0 := by
        rw [List.getElem?_take_of_lt (by omega), List.getElem?_append_right (by omega), List.getElem?_replicate, if_pos (by omega)]
      rw [e] at e2
      exact absurd e2 (by decide)
  have hk : fileKind (L.first c) (L.islog c) (L.isnc c) = .unknown := by
    unfold fileKind
    simp only [hsig, if_false, hsn]
  unfold dumpMain
  simp [-List.reduceReplicate, h1, h2, hc.1, hc.2, dumpRun, signature, dumpBody, hsig, hk]

/-! ### An example: a log-based file, one with a user block, an ordinary HDF5 file and a text -/

/-- Contents of the files of the example. -/
inductive MC where
  | log | block | plain | text | fresh | done | half
deriving DecidableEq, Repr

/-- The files as the tools see them. -/
def mcLib : Lib MC Nat where
  first c := match c with
    | .block => [1, 2, 3, 4, 5, 6, 7, 8]
    | .text => [72, 101]
    | _ => hdf5Sig ++ [0]
  opens c := decide (c ≠ .text)
  islog c := decide (c = .log ∨ c = .block)
  isnc _ := false
  fresh := .fresh
  copy c := match c with
    | .log | .block => (true, .done)
    | _ => (false, .half)
  refuses := true
  clobber _ := (false, .fresh)
  dump d c := (decide (c = .log ∨ c = .block), if d then 2 else 1)

/-- Paths of the example. -/
def mcFiles : Files MC := fun p =>
  if p = ['l'] then some .log else if p = ['b'] then some .block else if p = ['p'] then some .plain
  else if p = ['t'] then some .text else if p = ['x'] then some .done else none

example : Asks [.i ['t'], .o ['x'], .i ['l']] ['l'] ['x'] := by unfold Asks; decide

example : replayMain mcLib (fun _ => true) mcFiles [.i ['t'], .o ['x'], .i ['l']] =
    (0, mcFiles.put ['x'] .fresh |>.put ['x'] .done) := rfl

example : Opens mcLib mcFiles ['l'] .log ∧ Opens mcLib mcFiles ['b'] .block ∧ ¬ Signed mcLib mcFiles ['b'] ∧ Signed mcLib mcFiles ['l'] := by
  refine ⟨⟨rfl, rfl⟩, ⟨rfl, rfl⟩, ?_, ⟨.log, rfl, [0], rfl⟩⟩
  rw [← replayCheck_iff]
  decide

example : (replayMain mcLib (fun _ => true) mcFiles [.i ['t'], .o ['x']]).1 = -1 ∧
    (replayMain mcLib (fun _ => true) mcFiles [.i ['t'], .o ['x']]).2 ['x'] = some .fresh ∧
    (replayMain mcLib (fun _ => true) mcFiles [.i ['t'], .o ['t']]).2 ['t'] = some .fresh ∧
    (replayMain mcLib (fun _ => true) mcFiles [.i ['p'], .o ['x']]).2 ['x'] = some .half ∧
    (replayMain mcLib (fun _ => true) mcFiles [.i ['b'], .o ['x']]).1 = -1 ∧
    (replayMain mcLib (fun _ => false) mcFiles [.i ['l'], .o ['x']]).2 = mcFiles := ⟨rfl, rfl, rfl, rfl, rfl, rfl⟩

example : dumpMain mcLib mcFiles 1 [.verbose] (some ['l']) = (0, [.body 2]) ∧ dumpMain mcLib mcFiles 1 [.header] (some ['l']) = (0, [.body 1]) ∧
    dumpMain mcLib mcFiles 1 [.kind] (some ['p']) = (0, [.kind .hdf5]) ∧ (dumpMain mcLib mcFiles 1 [] (some ['p'])).1 = -1 ∧
    dumpMain mcLib mcFiles 1 [] (some ['b']) = (-1, [.notLog .unknown, .body 2]) ∧
    dumpMain mcLib mcFiles 1 [.kind] (some ['n']) = (0, [.cannotOpen, .kind .unknown]) := by
  refine ⟨?_, ?_, ?_, ?_, ?_, ?_⟩ <;> decide

end Verif.Props
