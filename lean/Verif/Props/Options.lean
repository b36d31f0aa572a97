import Verif.Model.Options

/-
C33: options set by the user are the options in effect.
-/

namespace Verif.Props

/-- Options whose setter stores the value. -/
def SettableOpt (o : Opt) : Prop := o ∉ [Opt.nbBuffer, .idxBuffer, .merge, .encoding]

instance (o : Opt) : Decidable (SettableOpt o) := by unfold SettableOpt; infer_instance

/-- C33: setting an option on a list of its class and getting it returns the value set and leaves all other options as they
were, for all options but those of the violations below. -/
theorem C33_property_partial {o : Opt} (ho : SettableOpt o) (p : PList) (v : Int) (hc : p.cls = optClass o) :
    ∃ p', setOpt o p v = .ok p' ∧ getOpt o p' = .ok v ∧ (∀ o', o' ≠ o → getOpt o' p' = getOpt o' p) ∧ p'.cls = p.cls := by
  have h1 : optStub o = false := by revert ho; cases o <;> decide
  have h2 : ¬ (optSize o).2 < (optSize o).1 := by revert ho; cases o <;> decide
  refine ⟨{ p with vals := (o, v) :: p.vals.filter (fun e => e.1 != o) }, ?_, ?_, ?_, rfl⟩
  · unfold setOpt
    rw [h1, if_neg (by simp), if_neg (by simp [hc]), if_neg h2]
  · unfold getOpt
    rw [if_neg (by simp [hc])]
    simp
  · intro o' hne
    unfold getOpt
    have : ((o, v) :: p.vals.filter (fun e => e.1 != o)).find? (fun e => e.1 == o') =
        p.vals.find? (fun e => e.1 == o') := by
      rw [List.find?_cons_of_neg (by simpa using Ne.symm hne), List.find?_filter]
      congr 1
      funext e
      by_cases h : e.1 = o'
      · simp [h, hne]
      · simp [h]
    simp only [this]

/-- Setting an option on a list of another class fails. -/
theorem C33_class_partial {o : Opt} (ho : SettableOpt o) (p : PList) (v : Int) (hc : p.cls ≠ optClass o) :
    setOpt o p v = .err := by
  have h1 : optStub o = false := by revert ho; cases o <;> decide
  unfold setOpt
  rw [h1, if_neg (by simp), if_pos hc]

/-- The class of property lists that the documentation names for an option (doc/api.md L85, L126, L155, L191, L227, L273); `none` if it does not
mention the option. -/
def docClass : Opt → Option PClass
  | .buffered | .idxBuffer => some .transfer
  | .share | .zip | .passthru => some .fileAccess
  | .subfiling => some .fileCreate
  | _ => none

/-- C33, documented classes, partial: all documented options but the size of the index.  An option can be set on a list of the documented class and read from
it, and on no other list. -/
theorem C33_documented_partial {o : Opt} {c : PClass} (hd : docClass o = some c) (ho : o ≠ .idxBuffer) (p : PList) (v : Int) :
    (p.cls = c → ∃ p', setOpt o p v = .ok p' ∧ getOpt o p' = .ok v) ∧ (p.cls ≠ c → setOpt o p v = .err) := by
  have hc : optClass o = c := by
    revert hd ho
    cases o <;> simp [docClass, optClass]
  have hs : SettableOpt o := by
    revert hd ho
    cases o <;> simp [docClass, SettableOpt]
  subst hc
  constructor
  · intro h
    obtain ⟨p', h1, h2, _⟩ := C33_property_partial hs p v h
    exact ⟨p', h1, h2⟩
  · exact C33_class_partial hs p v

/-- C33 is violated: what a list of the documented class says about the size of the index is not looked at. -/
theorem C33_documented_violated (p : PList) (hp : p.cls = .transfer) : docClass .idxBuffer = some .transfer ∧ getOpt .idxBuffer p = .ok (-1) := by
  refine ⟨rfl, ?_⟩
  unfold getOpt
  rw [if_pos (by rw [hp]; decide)]
  rfl

example : docClass .zip = some .fileAccess ∧ ∃ p', setOpt .zip ⟨.fileAccess, [(.share, 0)]⟩ 1 = .ok p' ∧ getOpt .zip p' = .ok 1 :=
  ⟨rfl, _, rfl, rfl⟩

/-- C33 is violated: three setters succeed without storing the value. -/
theorem C33_setter_violated (o : Opt) (ho : o = .nbBuffer ∨ o = .idxBuffer ∨ o = .merge) :
    ∃ (p p' : PList) (v : Int), p.cls = optClass o ∧ setOpt o p v = .ok p' ∧ getOpt o p' ≠ .ok v := by
  refine ⟨⟨.fileAccess, []⟩, ⟨.fileAccess, []⟩, 1, ?_⟩
  rcases ho with rfl | rfl | rfl <;> decide

/-- C33 is violated: setting the selection encoding reads and stores more bytes than the value has. -/
theorem C33_encoding_violated (v : Int) (vals : List (Opt × Int)) : setOpt .encoding ⟨.fileAccess, vals⟩ v = .ub := rfl

/-- What an on/off option should be: the environment variable if set, else the property. -/
def onOff (env : Option String) (prop : Int) : Bool := env.elim (prop != 0) (· == "1")

/-- C33: in a created file, metadata sharing, merging, compression, passthru mode, selection encoding, the kind and memory
limit of the index and the number of subfiles are as the environment says, or as the property list says where it is silent;
for every environment and property lists of the right class. -/
theorem C33_create_partial (e : Env) (fapl fcpl : PList) (ha : fapl.cls = .fileAccess) (hc : fcpl.cls = .fileCreate) :
    ∃ f m s z en ib pt n, createOpts e fapl fcpl = .ok f ∧
      getOpt .merge fapl = .ok m ∧ getOpt .share fapl = .ok s ∧ getOpt .zip fapl = .ok z ∧
      getOpt .encoding fapl = .ok en ∧ getOpt .idxBuffer fapl = .ok ib ∧ getOpt .passthru fapl = .ok pt ∧
      getOpt .subfiling fcpl = .ok n ∧
      f.merge = onOff (e.var .merge) m ∧ f.share = onOff (e.var .share) s ∧ f.zip = onOff (e.var .zip) z ∧
      f.passthru = onOff (e.var .passthru) pt ∧
      f.encode = (e.var .encoding).elim (decide (en = 0)) (fun x => decide (x ≠ "canonical")) ∧
      f.mbuf = (e.var .idxBuffer).elim ib e.atoi ∧
      f.compact = (e.var .indexType).elim true (fun x => decide (x = "compact")) ∧
      f.ngroup = (e.var .nsubfiles).elim n (fun x => if x = "" then -1 else e.atoi x) ∧
      (f.subfiling = true ↔ f.ngroup ≠ 0) := by
  have get : ∀ o, optClass o = .fileAccess → ∃ v, getOpt o fapl = .ok v := by
    intro o h
    unfold getOpt
    rw [if_neg (by simp [ha, h])]
    exact ⟨_, rfl⟩
  have getc : ∀ o, optClass o = .fileCreate → ∃ v, getOpt o fcpl = .ok v := by
    intro o h
    unfold getOpt
    rw [if_neg (by simp [hc, h])]
    exact ⟨_, rfl⟩
  obtain ⟨m, hm⟩ := get .merge rfl
  obtain ⟨s, hs⟩ := get .share rfl
  obtain ⟨z, hz⟩ := get .zip rfl
  obtain ⟨en, hen⟩ := get .encoding rfl
  obtain ⟨ib, hib⟩ := get .idxBuffer rfl
  obtain ⟨pt, hpt⟩ := get .passthru rfl
  obtain ⟨nb, hnb⟩ := get .nbBuffer rfl
  obtain ⟨l, hl⟩ := getc .layout rfl
  obtain ⟨n, hn⟩ := getc .subfiling rfl
  obtain ⟨sg, hsg⟩ : ∃ v, getOpt .single fapl = .ok v := by
    unfold getOpt
    rw [if_pos (by simp [ha, optClass])]
    exact ⟨_, rfl⟩
  have hlen : ∀ x : String, (0 < x.length) ↔ x ≠ "" := by
    intro x
    rw [Nat.pos_iff_ne_zero, ne_eq, String.length_eq_zero_iff]
  unfold createOpts
  rw [hnb]
  simp only [Res.bind, parseFapl, hm, hs, hz, hen, hib, hpt, hsg, parseFcpl, hl, hn]
  refine ⟨_, m, s, z, en, ib, pt, n, rfl, rfl, rfl, rfl, rfl, rfl, rfl, rfl, ?_⟩
  refine ⟨?_, ?_, ?_, ?_, ?_, ?_, ?_, ?_, ?_⟩
  · cases e.var .merge <;> simp [bitOf, onOff, FileOpts.zero]
  · cases e.var .share <;> simp [bitOf, onOff, FileOpts.zero]
  · cases e.var .zip <;> simp [bitOf, onOff, FileOpts.zero]
  · cases e.var .passthru <;> simp [bitOf, onOff, FileOpts.zero]
  · cases e.var .encoding <;> rw [Bool.eq_iff_iff] <;> simp [bitOf, FileOpts.zero]
  · rfl
  · cases e.var .indexType <;> rw [Bool.eq_iff_iff] <;> simp
  · cases e.var .nsubfiles with
    | none => rfl
    | some x =>
      simp only [Option.elim, hlen]
      by_cases hx : x = "" <;> simp [hx]
  · simp [FileOpts.zero]

/-- C33 is violated: the environment variable for the data layout has the opposite effect, whatever the property says. -/
theorem C33_layout_violated (e : Env) (fapl fcpl : PList) (f : FileOpts) (h : createOpts e fapl fcpl = .ok f) :
    (e.var .layout = some "align" → f.align = false) ∧ (e.var .layout = some "contig" → f.align = true) := by
  unfold createOpts at h
  cases h1 : getOpt .nbBuffer fapl with
  | ok nb =>
    rw [h1] at h
    simp only [Res.bind] at h
    cases h2 : parseFapl e fapl { FileOpts.zero with bsize := nb } with
    | ok g =>
      rw [h2] at h
      simp only [parseFcpl] at h
      cases h3 : getOpt .layout fcpl with
      | ok l =>
        rw [h3] at h
        simp only [Res.bind] at h
        cases h4 : getOpt .subfiling fcpl with
        | ok n =>
          rw [h4] at h
          simp only [Res.ok.injEq] at h
          rw [← h]
          constructor <;> intro hv <;> rw [hv] <;> simp [bitOf]
        | err => rw [h4] at h; cases h
        | ub => rw [h4] at h; cases h
      | err => rw [h3] at h; cases h
      | ub => rw [h3] at h; cases h
    | err => rw [h2] at h; cases h
    | ub => rw [h2] at h; cases h
  | err => rw [h1] at h; cases h
  | ub => rw [h1] at h; cases h

/-- An environment without variables. -/
def noEnv : Env := ⟨fun _ => none, fun _ => 0⟩

/-- C33 is violated: the option to read a single subfile is set on a creation list and looked up on an access list, so that
setting it has no effect. -/
theorem C33_single_violated : ∃ fcpl f, setOpt .single ⟨.fileCreate, []⟩ 1 = .ok fcpl ∧
    createOpts noEnv ⟨.fileAccess, []⟩ fcpl = .ok f ∧ f.single = false :=
  ⟨⟨.fileCreate, [(.single, 1)]⟩, ⟨false, true, false, true, false, false, false, false, -1, true, 0, -1⟩,
    by decide, by decide, rfl⟩

/-- No property list makes a file read a single subfile. -/
theorem C33_single_never (e : Env) (fapl fcpl : PList) (f : FileOpts) (ha : fapl.cls = .fileAccess)
    (he : e.var .single = none) (h : createOpts e fapl fcpl = .ok f) : f.single = false := by
  have hs : getOpt .single fapl = .ok 0 := by
    unfold getOpt
    rw [if_pos (by simp [ha, optClass])]
    rfl
  have get : ∀ o, optClass o = .fileAccess → ∃ v, getOpt o fapl = .ok v := by
    intro o h
    unfold getOpt
    rw [if_neg (by simp [ha, h])]
    exact ⟨_, rfl⟩
  obtain ⟨m, hm⟩ := get .merge rfl
  obtain ⟨s, hsh⟩ := get .share rfl
  obtain ⟨z, hz⟩ := get .zip rfl
  obtain ⟨en, hen⟩ := get .encoding rfl
  obtain ⟨ib, hib⟩ := get .idxBuffer rfl
  obtain ⟨pt, hpt⟩ := get .passthru rfl
  obtain ⟨nb, hnb⟩ := get .nbBuffer rfl
  unfold createOpts at h
  simp only [hnb, Res.bind, parseFapl, hm, hsh, hz, hen, hib, hpt, hs, parseFcpl] at h
  cases h3 : getOpt .layout fcpl with
  | ok l =>
    cases h4 : getOpt .subfiling fcpl with
    | ok n =>
      simp only [h3, h4, Res.ok.injEq] at h
      rw [← h, he]
      simp [bitOf, FileOpts.zero]
    | err => simp [h3, h4] at h
    | ub => simp [h3, h4] at h
  | err => simp [h3] at h
  | ub => simp [h3] at h

/-- C33 is violated: when a file is opened, passthru mode (and every other on/off option) is that of the file, although the
user asks for another by environment variable and by property. -/
theorem C33_open_violated : ∃ (e : Env) (fapl fcpl : PList) (stored f : FileOpts),
    createOpts noEnv ⟨.fileAccess, []⟩ fcpl = .ok stored ∧ e.var .passthru = some "1" ∧ getOpt .passthru fapl = .ok 1 ∧
    openOpts e fapl stored = .ok f ∧ f.passthru = false :=
  ⟨⟨fun v => if v = .passthru then some "1" else none, fun _ => 0⟩, ⟨.fileAccess, [(.passthru, 1)]⟩, ⟨.fileCreate, []⟩,
    ⟨false, true, false, true, false, false, false, false, -1, true, 0, -1⟩,
    ⟨false, true, false, true, false, false, false, false, -1, true, 1, -1⟩,
    by decide, by decide, by decide, by decide, rfl⟩

/-- C33: when a file is opened, the kind and the memory limit of the index and the size of the buffer are those asked for;
the on/off options are as stored in the file, whatever the user asks for. -/
theorem C33_open_partial (e : Env) (fapl : PList) (stored f : FileOpts) (h : openOpts e fapl stored = .ok f) :
    (∃ ib, getOpt .idxBuffer fapl = .ok ib ∧ f.mbuf = (e.var .idxBuffer).elim ib e.atoi) ∧
    (f.compact = (e.var .indexType).elim true (fun x => decide (x = "compact"))) ∧
    (∃ nb, getOpt .nbBuffer fapl = .ok nb ∧ f.bsize = nb) ∧
    f.merge = stored.merge ∧ f.encode = stored.encode ∧ f.zip = stored.zip ∧ f.share = stored.share ∧
    f.passthru = stored.passthru ∧ f.align = (stored.align && !stored.subfiling) ∧ f.subfiling = stored.subfiling ∧
    f.single = stored.single ∧ (stored.subfiling = false → f.ngroup = 1) := by
  unfold openOpts parseFapl at h
  cases h1 : getOpt .nbBuffer fapl <;> simp only [h1, Res.bind, reduceCtorEq] at h
  cases h2 : getOpt .merge fapl <;> simp only [h2, reduceCtorEq] at h
  cases h3 : getOpt .share fapl <;> simp only [h3, reduceCtorEq] at h
  cases h4 : getOpt .zip fapl <;> simp only [h4, reduceCtorEq] at h
  cases h5 : getOpt .encoding fapl <;> simp only [h5, reduceCtorEq] at h
  cases h6 : getOpt .idxBuffer fapl <;> simp only [h6, reduceCtorEq] at h
  cases h7 : getOpt .single fapl <;> simp only [h7, reduceCtorEq] at h
  cases h8 : getOpt .passthru fapl <;> simp only [h8, reduceCtorEq] at h
  simp only [Res.ok.injEq] at h
  rw [← h]
  refine ⟨⟨_, rfl, rfl⟩, ?_, ⟨_, rfl, rfl⟩, rfl, rfl, rfl, rfl, rfl, rfl, rfl, rfl, fun h => by simp [h]⟩
  cases e.var .indexType <;> rw [Bool.eq_iff_iff] <;> simp

example : ∃ f, openOpts noEnv ⟨.fileAccess, [(.share, 0)]⟩ ⟨false, true, false, true, false, false, true, false, -1, true, 4, -1⟩ =
    .ok f ∧ f.share = true ∧ f.ngroup = 0x20A := ⟨_, rfl, rfl, rfl⟩

example : ∃ fapl f, setOpt .share ⟨.fileAccess, []⟩ 0 = .ok fapl ∧ createOpts noEnv fapl ⟨.fileCreate, [(.subfiling, 4)]⟩ = .ok f ∧
    f.share = false ∧ f.ngroup = 4 ∧ f.subfiling = true :=
  ⟨⟨.fileAccess, [(.share, 0)]⟩, ⟨false, true, false, false, false, false, true, false, -1, true, 4, -1⟩,
    by decide, by decide, rfl, rfl, rfl⟩

/-! ### C52 -/

/-- What the lists returned by `H5Fget_access_plist` and `H5Fget_create_plist` say about an option. -/
def Reports (fapl fcpl : PList) (o : Opt) (v : Int) : Prop :=
  getOpt o (if optClass o = .fileCreate then fcpl else fapl) = .ok v

/-- The value of an option that is in effect: an on/off option is 1 or 0, the selection encoding is 0 (offset) or 1
(canonical), the layout is 1 if aligned. -/
def InEffect (f : FileOpts) : Opt → Int
  | .buffered => 0
  | .nbBuffer => f.bsize
  | .idxBuffer => f.mbuf
  | .merge => if f.merge then 1 else 0
  | .share => if f.share then 1 else 0
  | .zip => if f.zip then 1 else 0
  | .encoding => if f.encode then 0 else 1
  | .layout => if f.align then 1 else 0
  | .subfiling => if f.subfiling then f.ngroup else 0
  | .single => if f.single then 1 else 0
  | .passthru => if f.passthru then 1 else 0

theorem get_under (o : Opt) (ho : o ≠ .buffered) (p : PList) (hc : p.cls = optClass o) :
    getOpt o (underList p) = .ok (optDefault o) := by
  unfold getOpt underList
  rw [if_neg (by simp [hc])]
  have : (p.vals.filter (fun e => e.1 == .buffered)).find? (fun e => e.1 == o) = none := by
    rw [List.find?_eq_none]
    intro x hx
    rw [List.mem_filter] at hx
    have h1 : x.1 = .buffered := by simpa using hx.2
    simp [h1, Ne.symm ho]
  simp [this]

theorem set_get {o : Opt} (ho : SettableOpt o) (p : PList) (v : Int) (hc : p.cls = optClass o) :
    ∃ p', setIgnored o p v = .ok p' ∧ getOpt o p' = .ok v ∧ (∀ o', o' ≠ o → getOpt o' p' = getOpt o' p) ∧ p'.cls = p.cls := by
  obtain ⟨p', h1, h2⟩ := C33_property_partial ho p v hc
  exact ⟨p', by simp [setIgnored, h1], h2⟩

/-- The options of the open file that the property lists report, for files without selection encoding (see
`C52_encoding_violated`). **C52, partial:** of the lists the file below was created or opened with nothing is left, and
compression, sharing if it is on, merging if it is off, passthru mode if it is off and the number of subfiles are reported as they are in effect. -/
theorem C52_report_partial (f : FileOpts) (he : f.encode = false) (fapl fcpl : PList) (ha : fapl.cls = .fileAccess)
    (hc : fcpl.cls = .fileCreate) :
    ∃ pa pc, getFapl f (underList fapl) = .ok pa ∧ getFcpl f (underList fcpl) = .ok pc ∧
      Reports pa pc .zip (InEffect f .zip) ∧ Reports pa pc .subfiling (InEffect f .subfiling) ∧
      (f.share = true → Reports pa pc .share (InEffect f .share)) ∧
      (f.merge = false → Reports pa pc .merge (InEffect f .merge)) ∧
      (f.passthru = false → Reports pa pc .passthru (InEffect f .passthru)) ∧
      (f.align = false → Reports pa pc .layout (InEffect f .layout)) ∧
      (f.single = false → Reports pa pc .single (InEffect f .single)) := by
  have hpc : ∃ pc, getFcpl f (underList fcpl) = .ok pc ∧ getOpt .subfiling pc = .ok (InEffect f .subfiling) ∧
      getOpt .layout pc = .ok 0 ∧ getOpt .single pc = .ok 0 := by
    unfold getFcpl
    cases hf : f.subfiling with
    | false =>
      exact ⟨_, if_neg (by simp), by rw [get_under _ (by decide) _ hc]; simp [InEffect, hf, optDefault],
        get_under _ (by decide) _ hc, get_under _ (by decide) _ hc⟩
    | true =>
      rw [if_pos rfl]
      obtain ⟨p', h1, h2, h3, _⟩ := set_get (o := .subfiling) (by decide) (underList fcpl) f.ngroup hc
      exact ⟨p', h1, by rw [h2]; simp [InEffect, hf], by rw [h3 _ (by decide)]; exact get_under _ (by decide) _ hc,
        by rw [h3 _ (by decide)]; exact get_under _ (by decide) _ hc⟩
  have hpa : ∃ pa, getFapl f (underList fapl) = .ok pa ∧ getOpt .zip pa = .ok (InEffect f .zip) ∧
      (f.share = true → getOpt .share pa = .ok 1) ∧ getOpt .merge pa = .ok 0 ∧ getOpt .passthru pa = .ok 0 := by
    have h0 : (if f.merge then setIgnored .merge (underList fapl) 1 else .ok (underList fapl)) = .ok (underList fapl) := by
      cases f.merge <;> rfl
    unfold getFapl
    rw [h0, he]
    simp only [Res.bind, Bool.false_eq_true, if_false]
    have hz : ∃ p, (if f.zip then setIgnored .zip (underList fapl) 1 else .ok (underList fapl)) = .ok p ∧
        getOpt .zip p = .ok (InEffect f .zip) ∧ (∀ o', o' ≠ .zip → getOpt o' p = getOpt o' (underList fapl)) ∧
        p.cls = .fileAccess := by
      cases hf : f.zip with
      | false =>
        refine ⟨_, if_neg (by simp), ?_, fun _ _ => rfl, ha⟩
        rw [get_under _ (by decide) _ ha]
        simp [InEffect, hf, optDefault]
      | true =>
        rw [if_pos rfl]
        obtain ⟨p', h1, h2, h3, h4⟩ := set_get (o := .zip) (by decide) (underList fapl) 1 ha
        exact ⟨p', h1, by rw [h2]; simp [InEffect, hf], h3, h4.trans ha⟩
    obtain ⟨p, z1, z2, z3, z4⟩ := hz
    rw [z1]
    simp only
    cases hf : f.share with
    | false =>
      refine ⟨p, if_neg (by simp), z2, by simp, ?_, ?_⟩
      · rw [z3 _ (by decide)]; exact get_under _ (by decide) _ ha
      · rw [z3 _ (by decide)]; exact get_under _ (by decide) _ ha
    | true =>
      rw [if_pos rfl]
      obtain ⟨p', h1, h2, h3, h4⟩ := set_get (o := .share) (by decide) p 1 z4
      refine ⟨p', h1, by rw [h3 _ (by decide)]; exact z2, fun _ => h2, ?_, ?_⟩
      · rw [h3 _ (by decide), z3 _ (by decide)]; exact get_under _ (by decide) _ ha
      · rw [h3 _ (by decide), z3 _ (by decide)]; exact get_under _ (by decide) _ ha
  obtain ⟨pc, c1, c2, c3, c4⟩ := hpc
  obtain ⟨pa, a1, a2, a3, a4, a5⟩ := hpa
  refine ⟨pa, pc, a1, c1, ?_, ?_, ?_, ?_, ?_, ?_, ?_⟩
  · exact a2
  · exact c2
  · intro h
    have := a3 h
    simpa [Reports, InEffect, h, optClass] using this
  · intro h
    simpa [Reports, InEffect, h, optClass] using a4
  · intro h
    simpa [Reports, InEffect, h, optClass] using a5
  · intro h
    simpa [Reports, InEffect, h, optClass] using c3
  · intro h
    simpa [Reports, InEffect, h, optClass] using c4

/-- The hypotheses hold for a file created with compression and four subfiles, in an environment that asks for canonical
selections. -/
example : ∃ e fapl fcpl f, createOpts e fapl fcpl = .ok f ∧ fapl.cls = .fileAccess ∧ fcpl.cls = .fileCreate ∧
    f.encode = false ∧ InEffect f .zip = 1 ∧ InEffect f .subfiling = 4 ∧ f.share = true :=
  ⟨⟨fun v => if v = .encoding then some "canonical" else none, fun _ => 0⟩, ⟨.fileAccess, [(.zip, 1)]⟩,
    ⟨.fileCreate, [(.subfiling, 4)]⟩, ⟨false, false, true, true, false, false, true, false, -1, true, 4, -1⟩,
    by decide, rfl, rfl, rfl, by decide, by decide, rfl⟩

/-- **C52 is violated:** `H5Fget_access_plist` is undefined for every file with the default selection encoding: it stores 8
bytes of a 4-byte variable. -/
theorem C52_encoding_violated (f : FileOpts) (he : f.encode = true) (fapl : PList) (ha : fapl.cls = .fileAccess) :
    getFapl f (underList fapl) = .ub := by
  have h0 : (if f.merge then setIgnored .merge (underList fapl) 1 else .ok (underList fapl)) = .ok (underList fapl) := by
    cases f.merge <;> rfl
  unfold getFapl
  rw [h0, he]
  simp [Res.bind, setIgnored, setOpt, optStub, underList, ha, optClass, optSize]

/-- Such files are created by default. -/
example : ∃ f, createOpts noEnv ⟨.fileAccess, []⟩ ⟨.fileCreate, []⟩ = .ok f ∧ f.encode = true :=
  ⟨⟨false, true, false, true, false, false, false, false, -1, true, 0, -1⟩, by decide, rfl⟩

/-- **C52 is violated:** sharing and selection encoding that the user turned off are reported as on, passthru mode that the
user turned on as off, and the limit for the index as absent. -/
theorem C52_off_violated : ∃ e fapl fcpl f pa pc, createOpts e fapl fcpl = .ok f ∧
    getFapl f (underList fapl) = .ok pa ∧ getFcpl f (underList fcpl) = .ok pc ∧
    (InEffect f .share = 0 ∧ Reports pa pc .share 1) ∧ (InEffect f .encoding = 1 ∧ Reports pa pc .encoding 0) ∧
    (InEffect f .passthru = 1 ∧ Reports pa pc .passthru 0) ∧ (InEffect f .merge = 1 ∧ Reports pa pc .merge 0) ∧
    (InEffect f .idxBuffer = 100 ∧ Reports pa pc .idxBuffer (-1)) := by
  refine ⟨⟨fun v => if v = .encoding then some "canonical" else if v = .idxBuffer then some "100" else
      if v = .merge then some "1" else none, fun s => if s = "100" then 100 else 0⟩,
    ⟨.fileAccess, [(.share, 0), (.passthru, 1)]⟩, ⟨.fileCreate, []⟩,
    ⟨true, false, false, false, true, false, false, false, 100, true, 0, -1⟩, ⟨.fileAccess, []⟩, ⟨.fileCreate, []⟩,
    by decide, by decide, by decide, ?_⟩
  unfold Reports
  decide

/-- C52: in a log-based file the access property list is that of the file below that has the data, the creation property list
that of the file itself. -/
theorem C52_below {α : Type} (uo sub : Nat) (subfiling : Bool) (answer : Nat → Res α) :
    fileGet (belowPost (belowOpen uo) true subfiling sub) true answer = answer (if subfiling then sub else uo) ∧
    fileGet (belowPost (belowOpen uo) true subfiling sub) false answer = answer uo := ⟨rfl, rfl⟩

/-- **C52 is violated:** for an ordinary file `H5Fget_access_plist` fails, whatever the connector below would answer. -/
theorem C52_plain_violated {α : Type} (uo sub : Nat) (subfiling : Bool) (answer : Nat → Res α) :
    fileGet (belowPost (belowOpen uo) false subfiling sub) true answer = .err := rfl

/-- The same call with the connector below, and the query for the creation property list. -/
example : fileGet (belowPost (belowOpen 5) false false 6) false (fun u => Res.ok u) = .ok 5 := rfl

/-- A flag as a number. -/
def flag (b : Bool) : Int := if b then 1 else 0

theorem flag_cases (b : Bool) : flag b = 0 ∨ flag b = 1 := by cases b <;> simp [flag]

theorem flag_mul (b : Bool) (k : Int) : (if b = true then k else 0) = k * flag b := by cases b <;> simp [flag]

/-- C33: every option in the stored configuration word can be read back from its own bit. -/
theorem C33_word (f : FileOpts) :
    f.word % 2 = flag f.merge ∧ f.word / 0x2 % 2 = flag f.encode ∧ f.word / 0x4 % 2 = flag f.zip ∧
    f.word / 0x8 % 2 = flag f.share ∧ f.word / 0x10 % 2 = flag f.passthru ∧ f.word / 0x100 % 2 = flag f.align ∧
    f.word / 0x200 % 2 = flag f.subfiling ∧ f.word / 0x400 % 2 = flag f.single := by
  unfold FileOpts.word
  rw [flag_mul, flag_mul, flag_mul, flag_mul, flag_mul, flag_mul, flag_mul, flag_mul]
  have h1 := flag_cases f.merge; have h2 := flag_cases f.encode; have h3 := flag_cases f.zip
  have h4 := flag_cases f.share; have h5 := flag_cases f.passthru; have h6 := flag_cases f.align
  have h7 := flag_cases f.subfiling; have h8 := flag_cases f.single
  generalize flag f.merge = a at *
  generalize flag f.encode = b at *
  generalize flag f.zip = c at *
  generalize flag f.share = d at *
  generalize flag f.passthru = p at *
  generalize flag f.align = q at *
  generalize flag f.subfiling = r at *
  generalize flag f.single = t at *
  have g1 : 0 ≤ a ∧ a ≤ 1 := by omega
  have g2 : 0 ≤ b ∧ b ≤ 1 := by omega
  have g3 : 0 ≤ c ∧ c ≤ 1 := by omega
  have g4 : 0 ≤ d ∧ d ≤ 1 := by omega
  have g5 : 0 ≤ p ∧ p ≤ 1 := by omega
  have g6 : 0 ≤ q ∧ q ≤ 1 := by omega
  have g7 : 0 ≤ r ∧ r ≤ 1 := by omega
  have g8 : 0 ≤ t ∧ t ≤ 1 := by omega
  clear h1 h2 h3 h4 h5 h6 h7 h8
  refine ⟨?_, ?_, ?_, ?_, ?_, ?_, ?_, ?_⟩ <;> omega

end Verif.Props
