import Verif.Spec.Atts
import Verif.Props.Names
import Verif.Lemmas.Pairs

/-
C98: opening a file whose attributes another application has written or changed.
-/

namespace Verif.Props
open Verif.Atts
open Verif.Atts.Spec (shown Sound described firstWith Base SoundBefore)

/-- The session after the datasets `p` have been opened. -/
def stOf (nd nl nm cf : Int) (p : List Ds) : Sess :=
  ⟨nd, nl, nm, cf, (List.range nd.toNat).map (fun k : Nat => (firstWith p (k : Int)).map described)⟩

theorem stOf_nil (nd nl nm cf : Int) : stOf nd nl nm cf [] = ⟨nd, nl, nm, cf, List.replicate nd.toNat none⟩ := by
  unfold stOf firstWith
  simp only [List.find?_nil, Option.map_none, Sess.mk.injEq, true_and]
  apply List.ext_getElem <;> simp

theorem stOf_get {nd nl nm cf i : Int} {p : List Ds} (h0 : 0 ≤ i) (h1 : i < nd) :
    (stOf nd nl nm cf p).infos[i.toNat]? = some ((firstWith p i).map described) := by
  unfold stOf
  rw [List.getElem?_map, List.getElem?_range (by omega), Option.map_some]
  congr 3
  omega

theorem firstWith_snoc (p : List Ds) (d : Ds) (k : Int) :
    firstWith (p ++ [d]) k = (firstWith p k).or (if d.id = some [k] then some d else none) := by
  unfold firstWith
  rw [List.find?_append]
  congr 1
  by_cases h : d.id = some [k]
  · rw [if_pos h]; simp [h]
  · rw [if_neg h]; simp [h]

theorem openDs_sound {nd nl nm cf : Int} {p : List Ds} {d : Ds} (h : Sound (bit cf 1) nd d) :
    ∃ i, d.id = some [i] ∧ 0 ≤ i ∧ i < nd ∧ openDs (stOf nd nl nm cf p) d = .ok (stOf nd nl nm cf (p ++ [d]), i) := by
  obtain ⟨i, dims, mdims, h1, h2, h3, h4, h5, h6, h7, h8⟩ := h
  refine ⟨i, h1, h4, h5, ?_⟩
  unfold openDs
  have e1 : getAtt 1 d.id = .ok [i] := by rw [h1]; rfl
  have e2 : getAtt 32 d.dims = .ok dims := by rw [h2, getAtt, if_neg (by omega)]
  have e3 : getAtt 32 d.mdims = .ok mdims := by rw [h3, getAtt, if_neg (by omega)]
  have hg := stOf_get (nl := nl) (nm := nm) (cf := cf) (p := p) h4 h5
  rw [e1, Res.ok_bind, show item [i] 0 = .ok i from rfl, Res.ok_bind, if_neg (by omega), hg]
  cases hf : firstWith p i with
  | some e =>
    simp only [Option.map_some]
    have : stOf nd nl nm cf (p ++ [d]) = stOf nd nl nm cf p := by
      unfold stOf
      simp only [Sess.mk.injEq, true_and]
      refine List.map_congr_left fun k _ => ?_
      rw [firstWith_snoc]
      by_cases hk : d.id = some [(k : Int)]
      · have : (k : Int) = i := by rw [h1] at hk; simpa using hk.symm
        rw [this, hf]; rfl
      · rw [if_neg hk, Option.or_none]
    rw [this]
    rfl
  | none =>
    simp only [Option.map_none]
    rw [e2, Res.ok_bind, e3, Res.ok_bind, if_neg (fun c => h8 c.1 c.2)]
    have : stOf nd nl nm cf (p ++ [d]) = { stOf nd nl nm cf p with
        infos := (stOf nd nl nm cf p).infos.set i.toNat (some ⟨d.typ, dims, mdims⟩) } := by
      unfold stOf
      simp only [Sess.mk.injEq, true_and]
      apply List.ext_getElem
      · simp
      · intro k g1 g2
        rw [List.getElem_set, List.getElem_map, List.getElem_map, List.getElem_range, firstWith_snoc]
        by_cases hk : i.toNat = k
        · have hk' : (k : Int) = i := by omega
          rw [if_pos hk, hk', hf, if_pos h1]
          simp only [Option.none_or, Option.map_some, described, h2, h3, Option.getD_some]
        · have : d.id ≠ some [(k : Int)] := by
            rw [h1]
            intro c
            have : i = (k : Int) := by simpa using c
            omega
          rw [if_neg hk, if_neg this, Option.or_none]
    rw [this]
    rfl

theorem visitName_shown (d : Ds) (hne : d.name ≠ []) :
    (shown d = true → ∃ n, visitName d.name = some n ∧ nameRemap n = .ok d.name) ∧ (shown d = false → visitName d.name = none) := by
  obtain ⟨c, cs, e⟩ : ∃ c cs, d.name = c :: cs := by
    cases h : d.name with
    | nil => exact absurd h hne
    | cons c cs => exact ⟨c, cs, rfl⟩
  by_cases hu : c = '_'
  · subst hu
    unfold shown
    cases cs with
    | nil => rw [e]; exact ⟨by simp, fun _ => by decide⟩
    | cons c2 cs =>
      rw [e]
      constructor
      · intro h
        have h2 : c2 = '_' := by simpa using h
        subst h2
        exact ⟨'_' :: cs, by simp [visitName], by simp [nameRemap]⟩
      · intro h
        have h2 : c2 ≠ '_' := by simpa using h
        simp [visitName, h2]
  · have hb : shown d = (c != '/' && c != '.') := by
      unfold shown
      rw [e]
      split
      · rename_i h; cases h
      · rename_i h; cases h; exact absurd rfl hu
      · rename_i h; cases h; exact absurd rfl hu
      · rename_i h; cases h; rfl
    rw [hb, e]
    constructor
    · intro h
      have h' : c ≠ '/' ∧ c ≠ '.' := by simpa using h
      exact ⟨c :: cs, by simp [visitName, hu, h'.1, h'.2], by simp [nameRemap, hu]⟩
    · intro h
      have h' : c = '/' ∨ c = '.' := by
        by_cases h1 : c = '/'
        · exact .inl h1
        · refine .inr ?_
          simpa [h1] using h
      rcases h' with h' | h' <;> simp [visitName, h']

theorem find_self {all : List Ds} (hn : (all.map (·.name)).Nodup) {d : Ds} (hd : d ∈ all) : find all d.name = some d := by
  unfold find
  induction all with
  | nil => simp at hd
  | cons e es ih =>
    rw [List.map_cons, List.nodup_cons] at hn
    rcases List.mem_cons.1 hd with rfl | hd
    · simp
    · have : (e.name == d.name) = false := by
        rw [beq_eq_false_iff_ne]
        intro c
        exact hn.1 (c ▸ List.mem_map_of_mem hd)
      rw [List.find?_cons_of_neg (by simp [this])]
      exact ih hn.2 hd

theorem visit_head {all : List Ds} (hn : (all.map (·.name)).Nodup) {d : Ds} (hd : d ∈ all) (hne : d.name ≠ []) (s : Sess)
    (ds : List Ds) : (shown d = true → visit all s (d :: ds) = (do let r ← openDs s d; visit all r.1 ds)) ∧
      (shown d = false → visit all s (d :: ds) = visit all s ds) := by
  obtain ⟨v1, v2⟩ := visitName_shown d hne
  constructor
  · intro h
    obtain ⟨n, e1, e2⟩ := v1 h
    rw [visit, e1]
    simp only [openName, e2, Res.ok_bind, find_self hn hd]
  · intro h
    rw [visit, v2 h]

theorem visit_sound {all : List Ds} (hn : (all.map (·.name)).Nodup) (hne : ∀ d ∈ all, d.name ≠ []) {nd nl nm cf : Int} (rest : List Ds) :
    ∀ (l p : List Ds), (∀ d ∈ l, d ∈ all) → (∀ d ∈ l, shown d = true → Sound (bit cf 1) nd d) →
      visit all (stOf nd nl nm cf p) (l ++ rest) = visit all (stOf nd nl nm cf (p ++ l.filter shown)) rest := by
  intro l
  induction l with
  | nil => intro p _ _; simp
  | cons d l ih =>
    intro p h1 h2
    obtain ⟨v1, v2⟩ := visit_head hn (h1 d List.mem_cons_self) (hne d (h1 d List.mem_cons_self)) (stOf nd nl nm cf p) (l ++ rest)
    have g1 := fun e he => h1 e (List.mem_cons_of_mem _ he)
    have g2 := fun e he => h2 e (List.mem_cons_of_mem _ he)
    rw [List.cons_append]
    cases hs : shown d with
    | true =>
      obtain ⟨i, _, _, _, e⟩ := openDs_sound (nl := nl) (nm := nm) (p := p) (h2 d List.mem_cons_self hs)
      rw [v1 hs, e, Res.ok_bind, ih _ g1 g2, List.filter_cons_of_pos hs, List.append_assoc, List.singleton_append]
    | false => rw [v2 hs, ih _ g1 g2, List.filter_cons_of_neg (by simp [hs])]

theorem openFile_base {f : File} {nd nm : Int} {enc : Bool} (h : Base f nd nm enc) :
    ∃ nl cf, bit cf 1 = enc ∧ openFile f = (do let s ← visit f.objs (stOf nd nl nm cf []) f.objs; return .log s) := by
  obtain ⟨h1, h2, h3, _, _, nl, cf, ng, h5, h6, h7⟩ := h
  refine ⟨nl, cf, h7, ?_⟩
  unfold openFile
  rw [if_neg (by rw [h1, h5]; simp), h5, show getAtt 5 (some [nd, nl, nm, cf, ng]) = .ok [nd, nl, nm, cf, ng] from rfl, Res.ok_bind]
  show (if nd < 0 then _ else if bit cf 9 = true ∧ ¬ f.sub = true then _ else if ¬ f.log = true then _ else _) = _
  rw [if_neg (by omega), if_neg (by simp [h6]), if_neg (by simp [h2]), stOf_nil]

/-! ### C98 -/

/-- **C98.** If the attributes of all datasets are as the connector writes them, the file is opened, and the table of datasets
holds, under every number, what the first dataset with it says; so under different numbers that of every dataset. -/
theorem C98_open {f : File} {nd nm : Int} {enc : Bool} (h : Base f nd nm enc)
    (hs : ∀ d ∈ f.objs, shown d = true → Sound enc nd d) :
    ∃ s, openFile f = .ok (.log s) ∧ s.ndset = nd ∧ s.nmd = nm ∧ (s.infos.length : Int) = nd ∧
      ∀ i, 0 ≤ i → i < nd → s.infos[i.toNat]? = some ((firstWith (f.objs.filter shown) i).map described) := by
  obtain ⟨nl, cf, e1, e2⟩ := openFile_base h
  obtain ⟨_, _, h3, h4, h5, _⟩ := h
  have := visit_sound h4 h5 (nd := nd) (nl := nl) (nm := nm) (cf := cf) [] f.objs [] (fun _ hd => hd) (by rw [e1]; exact hs)
  rw [List.append_nil, List.nil_append] at this
  refine ⟨_, by rw [e2, this]; rfl, rfl, rfl, ?_, fun i i1 i2 => stOf_get i1 i2⟩
  simp only [stOf, List.length_map, List.length_range]
  omega

/-- **C98.** Opening a dataset of such a file then tells its number. -/
theorem C98_number {f : File} {nd nm : Int} {enc : Bool} (h : Base f nd nm enc)
    (hs : ∀ d ∈ f.objs, shown d = true → Sound enc nd d) {d : Ds} (hd : d ∈ f.objs) (hsh : shown d = true) {n : Name}
    (hn : nameRemap n = .ok d.name) {s : Sess} (ho : openFile f = .ok (.log s)) :
    ∃ i, d.id = some [i] ∧ openName f.objs s n = .ok (s, i) := by
  obtain ⟨nl, cf, e1, e2⟩ := openFile_base h
  obtain ⟨_, _, h3, h4, h5, _⟩ := h
  have := visit_sound h4 h5 (nd := nd) (nl := nl) (nm := nm) (cf := cf) [] f.objs [] (fun _ hd => hd) (by rw [e1]; exact hs)
  rw [List.append_nil, List.nil_append] at this
  rw [e2, this] at ho
  have hse : stOf nd nl nm cf (f.objs.filter shown) = s := by
    simp only [visit, Res.ok_bind] at ho
    injection ho with ho
    injection ho
  subst hse
  obtain ⟨i, i1, i2, i3, i4⟩ := openDs_sound (nl := nl) (nm := nm) (p := f.objs.filter shown) (by rw [e1]; exact hs d hd hsh)
  refine ⟨i, i1, ?_⟩
  simp only [openName, hn, Res.ok_bind, find_self h4 hd, i4]
  congr 2
  unfold stOf
  simp only [Sess.mk.injEq, true_and]
  refine List.map_congr_left fun k _ => ?_
  rw [firstWith_snoc]
  by_cases hk : d.id = some [(k : Int)]
  · have hmem : d ∈ f.objs.filter shown := List.mem_filter.2 ⟨hd, hsh⟩
    have : (firstWith (f.objs.filter shown) (k : Int)).isSome = true := by
      unfold firstWith
      rw [List.find?_isSome]
      exact ⟨d, hmem, by simp [hk]⟩
    cases hf : firstWith (f.objs.filter shown) (k : Int) with
    | none => rw [hf] at this; cases this
    | some e => rfl
  · rw [if_neg hk, Option.or_none]

/-- **C98, violated.** Two datasets with the same number, as after a dataset was copied by another application: the file is
opened, and the second one is taken for the first: type, sizes and number. -/
theorem C98_twins_violated {f : File} {nd nm : Int} {enc : Bool} (h : Base f nd nm enc)
    (hs : ∀ d ∈ f.objs, shown d = true → Sound enc nd d) {d e : Ds} (hd : d ∈ f.objs) (hsd : shown d = true) (he : e ∈ f.objs)
    (hse : shown e = true) (hid : d.id = e.id) {n m : Name} (hn : nameRemap n = .ok d.name) (hm : nameRemap m = .ok e.name) :
    ∃ s i x, openFile f = .ok (.log s) ∧ openName f.objs s n = .ok (s, i) ∧ openName f.objs s m = .ok (s, i) ∧
      s.infos[i.toNat]? = some (some x) := by
  obtain ⟨s, ho, _, _, _, hi⟩ := C98_open h hs
  obtain ⟨i, i1, i2⟩ := C98_number h hs hd hsd hn ho
  obtain ⟨j, j1, j2⟩ := C98_number h hs he hse hm ho
  have hij : i = j := by
    rw [i1, j1] at hid
    simpa using hid
  subst hij
  obtain ⟨i', _, _, k1, _, _, k2, k3, _⟩ := hs d hd hsd
  have : i' = i := by rw [i1] at k1; simpa using k1.symm
  subst this
  have : (firstWith (f.objs.filter shown) i').isSome = true := by
    unfold firstWith
    rw [List.find?_isSome]
    exact ⟨d, List.mem_filter.2 ⟨hd, hsd⟩, by simp [i1]⟩
  obtain ⟨y, hy⟩ := Option.isSome_iff_exists.1 this
  exact ⟨s, i', described y, ho, i2, j2, by rw [hi _ k2 k3, hy]; rfl⟩

theorem open_before {f : File} {nd nm : Int} {enc : Bool} {pre post : List Ds} {d : Ds} (h : SoundBefore f nd nm enc pre d post) :
    ∃ s : Sess, s.infos.length = nd.toNat ∧ bit s.config 1 = enc ∧
      (∀ i, 0 ≤ i → i < nd → s.infos[i.toNat]? = some ((firstWith (pre.filter shown) i).map described)) ∧
      openFile f = (do let r ← openDs s d; let t ← visit f.objs r.1 post; return .log t) := by
  obtain ⟨h, e, hs, hd⟩ := h
  obtain ⟨nl, cf, e1, e2⟩ := openFile_base h
  obtain ⟨_, _, h3, h4, h5, _⟩ := h
  have := visit_sound h4 h5 (nd := nd) (nl := nl) (nm := nm) (cf := cf) (d :: post) pre []
    (fun x hx => by rw [e]; exact List.mem_append_left _ hx) (by rw [e1]; exact hs)
  refine ⟨stOf nd nl nm cf (pre.filter shown), by simp [stOf], e1, fun i i1 i2 => stOf_get i1 i2, ?_⟩
  have hm : d ∈ f.objs := by rw [e]; simp
  rw [e2]
  conv => lhs; arg 1; arg 3; rw [e]
  rw [this, List.nil_append, (visit_head h4 hm (h5 d hm) _ post).1 hd]
  cases openDs (stOf nd nl nm cf (pre.filter shown)) d <;> rfl

/-- **C98, violated.** A number that is not below the number of datasets in the attribute of the file is used to access the
table; so is one that is not initialised, and several numbers overrun the variable for one. -/
theorem C98_id_violated {f : File} {nd nm : Int} {enc : Bool} {pre post : List Ds} {d : Ds} (h : SoundBefore f nd nm enc pre d post)
    {v : List Int} (hv : d.id = some v) (hbad : ∀ i, v = [i] → i < 0 ∨ nd ≤ i) : openFile f = .ub := by
  obtain ⟨s, s1, _, _, s2⟩ := open_before h
  rw [s2]
  have : openDs s d = .ub := by
    unfold openDs
    rw [hv]
    match v, hbad with
    | [], _ => rfl
    | [i], hb =>
      rw [show getAtt 1 (some [i]) = .ok [i] from rfl, Res.ok_bind, show item [i] 0 = .ok i from rfl, Res.ok_bind]
      rcases hb i rfl with hb | hb
      · rw [if_pos hb]
      · by_cases hi : i < 0
        · rw [if_pos hi]
        · rw [if_neg hi, List.getElem?_eq_none (by omega)]
    | i :: j :: k, _ => rw [getAtt, if_pos (by simp)]; rfl
  rw [this]
  rfl

/-- **C98, violated.** One dataset without a number, as created by another application, and no dataset of the file can be used
any more: the file cannot be opened. -/
theorem C98_foreign_violated {f : File} {nd nm : Int} {enc : Bool} {pre post : List Ds} {d : Ds} (h : SoundBefore f nd nm enc pre d post)
    (hv : d.id = none) : openFile f = .err := by
  obtain ⟨s, _, _, _, s2⟩ := open_before h
  rw [s2, show openDs s d = .err by unfold openDs; rw [hv]; rfl]
  rfl

/-- **C98, violated.** More sizes than a dataset can have overrun the arrays for them, and so does no size at all with selection
encoding; missing ones are an error. -/
theorem C98_sizes_violated {f : File} {nd nm : Int} {enc : Bool} {pre post : List Ds} {d : Ds} (h : SoundBefore f nd nm enc pre d post)
    {i : Int} (hv : d.id = some [i]) (h0 : 0 ≤ i) (h1 : i < nd) (hnew : ∀ e ∈ pre, e.id ≠ some [i]) :
    (∀ v, d.dims = some v → 32 < v.length → openFile f = .ub) ∧
    (∀ v w, d.dims = some v → v.length ≤ 32 → d.mdims = some w → 32 < w.length → openFile f = .ub) ∧
    (∀ w, d.dims = some [] → d.mdims = some w → w.length ≤ 32 → enc = true → openFile f = .ub) ∧
    (d.dims = none → openFile f = .err) ∧
    (∀ v, d.dims = some v → v.length ≤ 32 → d.mdims = none → openFile f = .err) := by
  obtain ⟨s, _, s0, s1, s2⟩ := open_before h
  have hf : firstWith (pre.filter shown) i = none := by
    unfold firstWith
    rw [List.find?_eq_none]
    intro e he
    simpa using hnew e (List.mem_filter.1 he).1
  have hi : s.infos[i.toNat]? = some none := by rw [s1 i h0 h1, hf]; rfl
  have key : openDs s d = (do
      let dims ← getAtt 32 d.dims
      let mdims ← getAtt 32 d.mdims
      if bit s.config 1 = true ∧ dims = [] then .ub
      else return ({ s with infos := s.infos.set i.toNat (some ⟨d.typ, dims, mdims⟩) }, i)) := by
    unfold openDs
    rw [hv, show getAtt 1 (some [i]) = .ok [i] from rfl, Res.ok_bind, show item [i] 0 = .ok i from rfl, Res.ok_bind,
      if_neg (by omega), hi]
  have big : ∀ v : List Int, 32 < v.length → getAtt 32 (some v) = .ub := fun v h => by rw [getAtt, if_pos h]
  have fit : ∀ v : List Int, v.length ≤ 32 → getAtt 32 (some v) = .ok v := fun v h => by rw [getAtt, if_neg (by omega)]
  refine ⟨fun v e l => ?_, fun v w e l e' l' => ?_, fun w e e' l' he => ?_, fun e => ?_, fun v e l e' => ?_⟩
  · rw [s2, key, e, big v l]; rfl
  · rw [s2, key, e, fit v l, Res.ok_bind, e', big w l']; rfl
  · rw [s2, key, e, fit [] (by simp), Res.ok_bind, e', fit w l', Res.ok_bind, s0, if_pos ⟨he, rfl⟩]; rfl
  · rw [s2, key, e]; rfl
  · rw [s2, key, e, fit v l, Res.ok_bind, e']; rfl

/-- **C98, violated.** The attribute of the file: with more than five values they overrun the array for them, with fewer than
four values that are not there are used; a negative number of datasets is an error. -/
theorem C98_values_violated {f : File} (h : f.fails = false) {v : List Int} (hv : f.att = some v) :
    (5 < v.length ∨ v.length < 4 → openFile f = .ub) ∧
    (∀ nd nl nm cf r, v = nd :: nl :: nm :: cf :: r → v.length ≤ 5 → nd < 0 → openFile f = .err) := by
  have hne : ¬ (f.fails = true ∨ f.att = none) := by rw [h, hv]; simp
  constructor
  · intro hl
    unfold openFile
    rw [if_neg hne, hv, getAtt]
    by_cases h5 : 5 < v.length
    · rw [if_pos h5]; rfl
    · rw [if_neg h5, Res.ok_bind]
      have h4 : v.length < 4 := by omega
      match v, h4 with
      | [], _ => rfl
      | [_], _ => rfl
      | [_, _], _ => rfl
      | [_, _, _], _ => rfl
      | _ :: _ :: _ :: _ :: _, h => simp at h; omega
  · intro nd nl nm cf r e hl hn
    unfold openFile
    rw [if_neg hne, hv, getAtt, if_neg (by omega), Res.ok_bind, e]
    show (if nd < 0 then _ else _) = _
    rw [if_pos hn]

/-- **C98, violated.** When the query whether the attribute is there fails, a log-based file is taken for an ordinary one. -/
theorem C98_query_violated (f : File) : openFile { f with fails := true } = .ok .ordinary := by
  unfold openFile
  rw [if_pos (.inl rfl)]

/-- **C98, violated.** The number of metadata datasets in the attribute is believed: with a smaller one the rest of the metadata
is ignored, with a negative one all; with a larger one nothing can be read. -/
theorem C98_count_violated (dsets : DSets) (share : Bool) (disk : Mem) (mds : List Ext) (nmd : Int) (ix : Idx) :
    (nmd ≤ mds.length → loadCount dsets share disk mds nmd ix = loadAll dsets share disk (mds.take nmd.toNat) ix) ∧
    ((mds.length : Int) < nmd → ∀ ix', loadAll dsets share disk mds ix = .ok ix' → loadCount dsets share disk mds nmd ix = .err) := by
  have key : ∀ (n i : Nat) (ix : Idx), i + n ≤ mds.length →
      loadN dsets share disk mds i n ix = loadAll dsets share disk ((mds.drop i).take n) ix := by
    intro n
    induction n with
    | zero => intro i ix _; simp [loadN, loadAll]
    | succ n ih =>
      intro i ix hi
      have hlt : i < mds.length := by omega
      rw [loadN, List.getElem?_eq_getElem hlt, List.drop_eq_getElem_cons hlt, List.take_succ_cons, loadAll]
      simp only [ih (i + 1) _ (by omega)]
  have key2 : ∀ (n i : Nat) (ix ix' : Idx), i ≤ mds.length → mds.length < i + n → loadAll dsets share disk (mds.drop i) ix = .ok ix' →
      loadN dsets share disk mds i n ix = .err := by
    intro n
    induction n with
    | zero => intro i _ _ h1 h2; omega
    | succ n ih =>
      intro i ix ix' h1 h2 h3
      rw [loadN]
      by_cases hlt : i < mds.length
      · rw [List.getElem?_eq_getElem hlt]
        rw [List.drop_eq_getElem_cons hlt, loadAll] at h3
        obtain ⟨b, b1, h3⟩ := Res.bind_ok h3
        obtain ⟨c, c1, h3⟩ := Res.bind_ok h3
        simp only [b1, Res.ok_bind, c1]
        exact ih (i + 1) c ix' (by omega) (by omega) h3
      · rw [List.getElem?_eq_none (by omega)]
  constructor
  · intro h
    have := key nmd.toNat 0 ix (by omega)
    rwa [List.drop_zero] at this
  · intro h ix' hx
    exact key2 nmd.toNat 0 ix ix' (by omega) (by omega) (by rwa [List.drop_zero])

/-- **C98.** Opening a name under which there is nothing fails and is defined, in every session. -/
theorem C98_absent {all : List Ds} (s : Sess) {n st : Name} (hn : nameRemap n = .ok st) (h : ∀ d ∈ all, d.name ≠ st) :
    openName all s n = .err := by
  have : find all st = none := by
    unfold find
    rw [List.find?_eq_none]
    intro d hd
    simpa using h d hd
  simp only [openName, hn, Res.ok_bind, this]

/-- "y" is not a name of the file below, "_y" is. -/
example : nameRemap "y".toList = .ok "y".toList := by decide

/-! ### Cases -/

/-- A file with a dataset of the connector, a copy of it made by another application, and a hidden dataset. -/
def caseFile : File :=
  ⟨false, some [2, 1, 1, 2, 1], true, false,
    [⟨"x".toList, 4, some [1], some [3, 4], some [3, 4]⟩, ⟨"_LOG/_ld_0".toList, 1, none, none, none⟩,
     ⟨"__y".toList, 8, some [1], some [7], some [7]⟩]⟩

example : Base caseFile 2 1 true ∧ (∀ d ∈ caseFile.objs, shown d = true → Sound true 2 d) ∧
    openFile caseFile = .ok (.log ⟨2, 1, 1, 2, [none, some ⟨4, [3, 4], [3, 4]⟩]⟩) ∧
    nameRemap "_y".toList = .ok "__y".toList := by
  refine ⟨⟨rfl, rfl, by decide, by decide, by decide, 1, 2, 1, rfl, by decide, by decide⟩, ?_, by decide +kernel, by decide⟩
  intro d hd
  simp only [caseFile, List.mem_cons, List.not_mem_nil, or_false] at hd
  rcases hd with rfl | rfl | rfl
  · exact fun _ => ⟨1, [3, 4], [3, 4], rfl, rfl, rfl, by decide, by decide, by decide, rfl, by decide⟩
  · exact fun h => absurd h (by decide)
  · exact fun _ => ⟨1, [7], [7], rfl, rfl, rfl, by decide, by decide, by decide, rfl, by decide⟩

/-- A dataset of another application between others. -/
example : ∃ pre d post, SoundBefore { caseFile with objs := caseFile.objs ++ [⟨"new".toList, 4, none, none, none⟩] } 2 1 true pre d post ∧
    d.id = none := by
  refine ⟨caseFile.objs, ⟨"new".toList, 4, none, none, none⟩, [],
    ⟨⟨rfl, rfl, by decide, by decide, by decide, 1, 2, 1, rfl, by decide, by decide⟩, rfl, ?_, by decide⟩, rfl⟩
  intro d hd
  simp only [caseFile, List.mem_cons, List.not_mem_nil, or_false] at hd
  rcases hd with rfl | rfl | rfl
  · exact fun _ => ⟨1, [3, 4], [3, 4], rfl, rfl, rfl, by decide, by decide, by decide, rfl, by decide⟩
  · exact fun h => absurd h (by decide)
  · exact fun _ => ⟨1, [7], [7], rfl, rfl, rfl, by decide, by decide, by decide, rfl, by decide⟩

end Verif.Props
