import Verif.Model.Merged
import Verif.Lemmas.EncOK
import Verif.Props.FileEx

/-
C24: metadata merging.
-/

namespace Verif.Props

open Verif

/-- All blocks written, in order. -/
def Spec.allBlocks (ws : List (List Blk × List Byte)) : List Blk := ws.flatMap (·.1)

/-- All data written, in order. -/
def Spec.allData (ws : List (List Blk × List Byte)) : List Byte := ws.flatMap (·.2)

/-- Writes that can be issued: at least one block each, of the rank of the dataset. -/
structure Spec.Writes (d : DInfo) (ws : List (List Blk × List Byte)) : Prop where
  some : ws ≠ []
  ne : ∀ w ∈ ws, w.1 ≠ []
  blk : ∀ w ∈ ws, ∀ b ∈ w.1, Spec.BlkOK d.ndim b

/-- The merged entry fits its fields. -/
structure Spec.MFits (m : MReq) (foff : Nat) : Prop where
  sz : (m.bytes foff).length < 2 ^ 31
  did : m.did < 2 ^ 31
  nsel : m.nsel < 2 ^ 31
  foff : foff < 2 ^ 63
  fsize : m.data.length < 2 ^ 63

/-- The bit of the configuration is never on in the flags. -/
theorem encTest_false (f : Flags) : encTest f = false := by
  rcases f with ⟨a, b, c, d, e⟩
  cases a <;> cases b <;> cases c <;> cases d <;> cases e <;> rfl

theorem grow_ge : ∀ (k a need : Nat), 0 < a → need ≤ a + k → need ≤ grow k a need
  | 0, a, need, _, h => by simpa [grow] using h
  | k + 1, a, need, ha, h => by
    unfold grow
    split
    · exact grow_ge k (a * 8) need (by omega) (by omega)
    · omega

theorem grow_le : ∀ (k a need : Nat), a ≤ grow k a need
  | 0, _, _ => Nat.le_refl _
  | k + 1, a, need => by
    unfold grow
    split
    · have := grow_le k (a * 8) need
      omega
    · exact Nat.le_refl _

theorem plainWords_len {n : Nat} {bs : List Blk} (h : ∀ b ∈ bs, Spec.BlkOK n b) : (plainWords 0 bs).length = 2 * n * bs.length := by
  unfold plainWords
  have h1 := flatMap_length_const (fun b : Blk => b.start.drop 0) n bs (fun b hb => by simpa using (h b hb).hs)
  have h2 := flatMap_length_const (fun b : Blk => b.count.drop 0) n bs (fun b hb => by simpa using (h b hb).hc)
  rw [List.length_append, h1, h2, Nat.mul_assoc 2]
  omega

/-- What an append does to a request. -/
theorem mAppend_ok {d : DInfo} {m : MReq} {bs : List Blk} (data : List Byte) (ha : 0 < m.alloc)
    (h : ∀ b ∈ bs, Spec.BlkOK d.ndim b) :
    ∃ a, 0 < a ∧ mAppend d m bs data = .ok ⟨m.did, m.flags, m.nsel + bs.length, m.sel ++ putWords (plainWords 0 bs), a, m.data ++ data⟩ := by
  have hw := plainWords_len h
  have hsz : bs.length * 2 * 8 * d.ndim = 8 * (plainWords 0 bs).length := by
    rw [hw, Nat.mul_comm 2 d.ndim, Nat.mul_comm (bs.length * 2 * 8) d.ndim, Nat.mul_assoc d.ndim 2,
      Nat.mul_left_comm 8 d.ndim]
    congr 1
    omega
  refine ⟨if m.alloc < m.metaSize + bs.length * 2 * 8 * d.ndim
    then grow (m.metaSize + bs.length * 2 * 8 * d.ndim) m.alloc (m.metaSize + bs.length * 2 * 8 * d.ndim) else m.alloc, ?_, ?_⟩
  · split
    · exact Nat.lt_of_lt_of_le ha (grow_le _ _ _)
    · exact ha
  · unfold mAppend
    simp only [encTest_false, Bool.false_eq_true, if_false]
    rw [if_neg]
    rw [← hsz]
    split
    · have := grow_ge (m.metaSize + bs.length * 2 * 8 * d.ndim) m.alloc (m.metaSize + bs.length * 2 * 8 * d.ndim) ha (by omega)
      omega
    · assumption

/-- What a sequence of writes does to a request. -/
theorem mergeRun_some {config : Nat} (hc : config ≠ 1) (d : DInfo) (did : Nat) : ∀ (ws : List (List Blk × List Byte)) (m : MReq),
    0 < m.alloc → (∀ w ∈ ws, w.1 ≠ []) → (∀ w ∈ ws, ∀ b ∈ w.1, Spec.BlkOK d.ndim b) →
    ∃ a, mergeRun config d did (some m) ws = .ok (some ⟨m.did, m.flags, m.nsel + (Spec.allBlocks ws).length,
      m.sel ++ putWords (ws.flatMap (fun w => plainWords 0 w.1)), a, m.data ++ Spec.allData ws⟩)
  | [], m, _, _, _ => ⟨m.alloc, by simp [mergeRun, Spec.allBlocks, Spec.allData, putWords]⟩
  | w :: ws, m, ha, hne, hb => by
    obtain ⟨a, hpos, e⟩ := mAppend_ok (d := d) (m := m) w.2 ha (hb w (by simp))
    obtain ⟨a', ih⟩ := mergeRun_some hc d did ws ⟨m.did, m.flags, m.nsel + w.1.length, m.sel ++ putWords (plainWords 0 w.1), a,
      m.data ++ w.2⟩ hpos (fun x hx => hne x (by simp [hx])) (fun x hx => hb x (by simp [hx]))
    refine ⟨a', ?_⟩
    have hx : ¬ (config ^^^ 1 = 0) := by
      intro h0
      have h2 := congrArg (· ^^^ 1) h0
      simp only [Nat.xor_assoc, Nat.xor_self, Nat.xor_zero, Nat.zero_xor] at h2
      exact hc h2
    unfold mergeRun mergeWrite
    rw [if_neg (hne w (by simp)), if_neg hx]
    simp only [Option.getD_some, e, Res.ok_bind, Res.pure_eq]
    rw [ih]
    simp only [Spec.allBlocks, Spec.allData, List.flatMap_cons, List.length_append, putWords_append, List.append_assoc, Nat.add_assoc]

theorem mergeRun_none {config : Nat} (hc : config ≠ 1) {d : DInfo} (did : Nat) {ws : List (List Blk × List Byte)}
    (h : Spec.Writes d ws) :
    ∃ m, mergeRun config d did none ws = .ok (some m) ∧ m.did = did ∧ m.flags = mergedFlags config d.ndim ∧
      m.nsel = (Spec.allBlocks ws).length ∧ m.sel = putWords (ws.flatMap (fun w => plainWords 0 w.1)) ∧
      m.data = Spec.allData ws := by
  have hpos : 0 < (mInit config d did 1).alloc := by
    unfold mInit hdrSize
    simp only
    omega
  obtain ⟨a, e⟩ := mergeRun_some hc d did ws (mInit config d did 1) hpos h.ne h.blk
  have hsel : (mInit config d did 1).sel = [] := by
    unfold mInit
    simp only [encTest_false, Bool.false_eq_true, if_false]
  have h0 : mergeRun config d did none ws = mergeRun config d did (some (mInit config d did 1)) ws := by
    cases ws with
    | nil => exact absurd rfl h.some
    | cons w ws =>
      unfold mergeRun mergeWrite
      rw [if_neg (h.ne w (by simp)), if_neg (h.ne w (by simp))]
      rfl
  refine ⟨_, by rw [h0]; exact e, rfl, rfl, ?_, ?_, ?_⟩
  · show 0 + _ = _
    omega
  · show (mInit config d did 1).sel ++ _ = _
    rw [hsel]
    rfl
  · rfl

/-- **C24, data (partial).** Whatever is written with merging on (together with some other option), no buffer is overrun
and the data of the entry is the data of the writes in order.  Missing: the blocks, see the other theorems, and merging as the only option,
see `C24_alone_violated`. -/
theorem C24_data_partial {config : Nat} (hc : config ≠ 1) {d : DInfo} (did : Nat) {ws : List (List Blk × List Byte)}
    (h : Spec.Writes d ws) :
    ∃ m, mergeRun config d did none ws = .ok (some m) ∧ m.did = did ∧ m.nsel = (Spec.allBlocks ws).length ∧
      m.data = Spec.allData ws := by
  obtain ⟨m, h1, h2, _, h4, _, h6⟩ := mergeRun_none hc did h
  exact ⟨m, h1, h2, h4, h6⟩

theorem merged_fits {m : MReq} {foff : Nat} (h : Spec.MFits m foff) :
    (m.hdr foff).Fits := by
  have h1 := h.sz
  have h2 := h.did
  have h3 := h.foff
  have h4 := h.fsize
  have e : (m.bytes foff).length = m.metaSize := by
    unfold MReq.bytes MReq.metaSize
    simp [Hdr.bytes, hdrSize]
    omega
  rw [e] at h1
  constructor
  · show -(2 : Int) ^ 31 ≤ (m.metaSize : Int); omega
  · show (m.metaSize : Int) < (2 : Int) ^ 31; omega
  · show -(2 : Int) ^ 31 ≤ (m.did : Int); omega
  · show (m.did : Int) < (2 : Int) ^ 31; omega
  · show -(2 : Int) ^ 63 ≤ (foff : Int); omega
  · show (foff : Int) < (2 : Int) ^ 63; omega
  · show -(2 : Int) ^ 63 ≤ (m.data.length : Int); omega
  · show (m.data.length : Int) < (2 : Int) ^ 63; omega

theorem merged_words64 {d : DInfo} {ws : List (List Blk × List Byte)} (h : Spec.Writes d ws) :
    ∀ w ∈ ws.flatMap (fun w => plainWords 0 w.1), w < 2 ^ 64 := by
  intro x hx
  obtain ⟨w, hw, hx⟩ := List.mem_flatMap.mp hx
  unfold plainWords at hx
  rcases List.mem_append.mp hx with hx | hx
  · obtain ⟨b, hb, hx⟩ := List.mem_flatMap.mp hx
    exact (h.blk w hw b hb).s64 x (by simpa using hx)
  · obtain ⟨b, hb, hx⟩ := List.mem_flatMap.mp hx
    exact (h.blk w hw b hb).c64 x (by simpa using hx)

theorem merged_words_len {d : DInfo} : ∀ {ws : List (List Blk × List Byte)}, (∀ w ∈ ws, ∀ b ∈ w.1, Spec.BlkOK d.ndim b) →
    (ws.flatMap (fun w => plainWords 0 w.1)).length = 2 * d.ndim * (Spec.allBlocks ws).length
  | [], _ => by simp [Spec.allBlocks]
  | w :: ws, h => by
    have ih := merged_words_len (ws := ws) (fun x hx => h x (by simp [hx]))
    unfold Spec.allBlocks at ih ⊢
    rw [List.flatMap_cons, List.flatMap_cons, List.length_append, List.length_append, ih, plainWords_len (h w (by simp)), Nat.mul_add]

/-- Decoding a merged entry. -/
theorem merged_decode {config : Nat} (hdefl : config.testBit 2 = false) {d : DInfo} {ws : List (List Blk × List Byte)}
    (h : Spec.Writes d ws) {m : MReq} (hfl : m.flags = mergedFlags config d.ndim) (hn : m.nsel = (Spec.allBlocks ws).length)
    (hsel : m.sel = putWords (ws.flatMap (fun w => plainWords 0 w.1))) {foff : Nat} (hf : Spec.MFits m foff) (pre post : List Byte) :
    metaDecode d (pre ++ m.bytes foff ++ post) pre.length =
      (do
        let sels ← selsOfWords d (mergedFlags config d.ndim).enc d.ndim (Spec.allBlocks ws).length none
          ((ws.flatMap (fun w => plainWords 0 w.1)).take (if (mergedFlags config d.ndim).enc then (d.ndim - 1) + 2 * (Spec.allBlocks ws).length
            else 2 * d.ndim * (Spec.allBlocks ws).length))
        let ds ← decDsize d d.ndim sels
        return { hdr := (m.hdr foff),
                 sels := sels, dsize := ds }) := by
  obtain ⟨W, hW⟩ : ∃ W, W = ws.flatMap (fun w => plainWords 0 w.1) := ⟨_, rfl⟩
  obtain ⟨n, hnn⟩ : ∃ n, n = (Spec.allBlocks ws).length := ⟨_, rfl⟩
  have hlen := merged_words_len h.blk
  have h64 := merged_words64 h
  have hn1 : 1 ≤ n := by
    rw [hnn]
    unfold Spec.allBlocks
    cases hws : ws with
    | nil => exact absurd hws h.some
    | cons w r =>
      rw [List.flatMap_cons, List.length_append]
      have := List.length_pos_iff.mpr (h.ne w (by rw [hws]; simp))
      omega
  rw [← hW] at hlen h64 hsel ⊢
  rw [← hnn] at hlen hn ⊢
  obtain ⟨nw, hnw⟩ : ∃ nw, nw = (if (mergedFlags config d.ndim).enc then (d.ndim - 1) + 2 * n else 2 * d.ndim * n) := ⟨_, rfl⟩
  have hle : nw ≤ W.length := by
    rw [hlen, hnw]
    split
    · rename_i he
      have hd : 1 < d.ndim := by
        have : (decide (1 < d.ndim) && config.testBit 1) = true := he
        rw [Bool.and_eq_true, decide_eq_true_eq] at this
        exact this.1
      obtain ⟨k, hk⟩ : ∃ k, d.ndim = k + 1 := ⟨d.ndim - 1, by omega⟩
      rw [hk, Nat.add_sub_cancel, Nat.mul_add, Nat.add_mul, Nat.mul_one]
      have : k * 1 ≤ k * (2 * n) := Nat.mul_le_mul_left k (by omega)
      have e : 2 * k * n = k * (2 * n) := by
        rw [Nat.mul_comm 2 k, Nat.mul_assoc]
      omega
    · exact Nat.le_refl _
  rw [← hnw]
  have hb := merged_fits hf
  have key := metaDecode_layout d (m.hdr foff)
    hb (by show (0 : Int) < (m.metaSize : Int); unfold MReq.metaSize hdrSize; omega) (by show m.flags.defl = false; rw [hfl]; exact hdefl) 0 n (W.take nw) pre
    (putWords (W.drop nw) ++ post) (by show m.flags.recd = true → _; rw [hfl]; intro hh; cases hh) (by decide)
    (by rw [← hn]; exact hf.nsel) (by show m.flags.mul = false → _; rw [hfl]; intro hh; cases hh)
    (by
      show m.flags.enc = true → (if m.flags.recd then d.ndim - 1 else d.ndim) ≠ 0
      rw [hfl]
      intro he
      have : (decide (1 < d.ndim) && config.testBit 1) = true := he
      rw [Bool.and_eq_true, decide_eq_true_eq] at this
      show (if false = true then d.ndim - 1 else d.ndim) ≠ 0
      rw [if_neg (by decide)]
      omega)
    (by
      show _ = if m.flags.enc then ((if m.flags.recd then d.ndim - 1 else d.ndim) - 1) + 2 * n
        else 2 * (if m.flags.recd then d.ndim - 1 else d.ndim) * n
      rw [hfl, List.length_take, Nat.min_eq_left hle, hnw]
      rfl)
    (fun w hw => h64 w (List.mem_of_mem_take hw)) (ent := pre.length) rfl
  have e : pre ++ m.bytes foff ++ post = pre ++ ((m.hdr foff).bytes
      ++ (if m.flags.recd then leN 8 0 else []) ++ (if m.flags.mul then leN 4 n else []) ++ putWords (W.take nw)) ++ (putWords (W.drop nw) ++ post) := by
    have h1 : m.flags.recd = false := by rw [hfl]; rfl
    have h2 : m.flags.mul = true := by rw [hfl]; rfl
    rw [h1, h2, if_neg (by decide), if_pos rfl]
    unfold MReq.bytes
    rw [hn, hsel]
    conv => lhs; rw [← List.take_append_drop nw W, putWords_append]
    simp only [List.append_assoc, List.append_nil]
  rw [e]
  refine key.trans ?_
  have h1 : m.flags.recd = false := by rw [hfl]; rfl
  have h3 : m.flags.enc = (mergedFlags config d.ndim).enc := by rw [hfl]
  show (do
        let sels ← selsOfWords d m.flags.enc (if m.flags.recd then d.ndim - 1 else d.ndim) n
          (if m.flags.recd then some 0 else none) (W.take nw)
        let ds ← decDsize d (if m.flags.recd then d.ndim - 1 else d.ndim) sels
        return ({ hdr := (m.hdr foff),
                  sels := sels, dsize := ds } : MEnt)) = _
  rw [h1, h3]
  rfl

theorem map_recFix (x : Nat) (l : List (List Nat)) : l.map (recFix none x) = l := by
  have : recFix none x = id := funext fun _ => rfl
  rw [this, List.map_id]

/-- **C24, one write (partial).** An entry with a single merged write decodes to the blocks of the write, provided the entry is
not flagged as encoded or compressed.  Missing: more than one write, see `C24_append_violated`; selection encoding, see
`C24_encode_violated`; compression, see `C24_deflate_violated`. -/
theorem C24_single_partial {config : Nat} (hc : config ≠ 1) (hdefl : config.testBit 2 = false) {d : DInfo}
    (henc : d.ndim ≤ 1 ∨ config.testBit 1 = false) (did : Nat) {bs : List Blk} {data : List Byte} (h : Spec.Writes d [(bs, data)])
    {foff : Nat} (pre post : List Byte) :
    ∃ m, mergeRun config d did none [(bs, data)] = .ok (some m) ∧ m.data = data ∧ (Spec.MFits m foff →
      ∃ e, metaDecode d (pre ++ m.bytes foff ++ post) pre.length = .ok e ∧ e.hdr.did = did ∧ e.hdr.foff = foff ∧
        e.hdr.fsize = data.length ∧ e.sels = Spec.sels d.esize bs) := by
  obtain ⟨m, h1, h2, h3, h4, h5, h6⟩ := mergeRun_none hc did h
  have hd : m.data = data := by
    rw [h6]
    simp [Spec.allData]
  refine ⟨m, h1, hd, fun hf => ?_⟩
  have key := merged_decode hdefl h h3 h4 h5 hf pre post
  have he : (mergedFlags config d.ndim).enc = false := by
    show (decide (1 < d.ndim) && config.testBit 1) = false
    rcases henc with hh | hh
    · rw [decide_eq_false (by omega)]
      rfl
    · rw [hh, Bool.and_false]
  have hlen := merged_words_len h.blk
  have hab : Spec.allBlocks [(bs, data)] = bs := by simp [Spec.allBlocks]
  have hfm : [(bs, data)].flatMap (fun w => plainWords 0 w.1) = plainWords 0 bs := by simp
  rw [he, if_neg (by decide), ← hlen, List.take_length, hab, hfm] at key
  have hok : Spec.SelOK d bs := by
    refine ⟨h.ne (bs, data) (by simp), ?_, h.blk (bs, data) (by simp)⟩
    have := hf.nsel
    rw [h4, hab] at this
    exact this
  have hr := rawCoords_plain hok 0
  have hs : selsOfWords d false d.ndim bs.length none (plainWords 0 bs) = .ok (Spec.sels d.esize bs) := by
    unfold selsOfWords
    rw [Nat.sub_zero] at hr
    rw [hr]
    simp only [Res.ok_bind, Res.pure_eq, List.drop_zero]
    rw [map_recFix, map_recFix]
    exact congrArg Res.ok (addDoffs_blocks d.esize bs)
  rw [hs, Res.ok_bind] at key
  have hds : ∃ n, decDsize d d.ndim (Spec.sels d.esize bs) = .ok n := by
    unfold decDsize
    cases hl : (Spec.sels d.esize bs).getLast? with
    | some s => exact ⟨_, rfl⟩
    | none =>
      rw [List.getLast?_eq_none_iff] at hl
      have := congrArg List.length hl
      simp [Spec.sels] at this
      exact absurd this hok.ne
  obtain ⟨n, hds⟩ := hds
  rw [hds] at key
  refine ⟨_, key, ?_, rfl, ?_, rfl⟩
  · show (m.did : Int) = did
    rw [h2]
  · show (m.data.length : Int) = data.length
    rw [hd]

theorem chunks_get : ∀ (k n : Nat) (l : List Nat) (i : Nat), i < n → (chunks k n l)[i]? = some ((l.drop (k * i)).take k)
  | k, 0, l, i, h => by omega
  | k, n + 1, l, 0, _ => by simp [chunks]
  | k, n + 1, l, i + 1, h => by
    have ih := chunks_get k n (l.drop k) i (by omega)
    simp only [chunks, List.getElem?_cons_succ]
    rw [ih, List.drop_drop, Nat.mul_add, Nat.mul_one, Nat.add_comm k]

theorem addDoffs_start (e acc : Nat) (l : List (List Nat × List Nat)) (i : Nat) :
    ((addDoffs e acc l)[i]?).map MSel.start = (l[i]?).map Prod.fst := by
  induction l generalizing acc i with
  | nil => rfl
  | cons p l ih =>
    rcases p with ⟨s, c⟩
    cases i with
    | zero => rfl
    | succ i => simpa [addDoffs] using ih (acc + e * prod c) i

theorem chunks_length : ∀ (k n : Nat) (l : List Nat), (chunks k n l).length = n
  | _, 0, _ => rfl
  | k, n + 1, l => by simp [chunks, chunks_length k n]

/-- **C24 is violated: several writes.** With two or more merged writes the starts and counts of the blocks get mixed up: the
first block of the second write is recovered with the counts of the first block of the first write as its start.  So the entry
decodes to other blocks whenever the two differ, for all writes. -/
theorem C24_append_violated {config : Nat} (hc : config ≠ 1) (hdefl : config.testBit 2 = false) {d : DInfo}
    (henc : d.ndim ≤ 1 ∨ config.testBit 1 = false) (did : Nat) {a b : Blk} {as bs : List Blk} {da db : List Byte}
    {ws : List (List Blk × List Byte)} (h : Spec.Writes d ((a :: as, da) :: (b :: bs, db) :: ws)) (hne : a.count ≠ b.start)
    {foff : Nat} (pre post : List Byte) :
    ∃ m, mergeRun config d did none ((a :: as, da) :: (b :: bs, db) :: ws) = .ok (some m) ∧ (Spec.MFits m foff →
      ∀ e, metaDecode d (pre ++ m.bytes foff ++ post) pre.length = .ok e →
        e.sels ≠ Spec.sels d.esize (Spec.allBlocks ((a :: as, da) :: (b :: bs, db) :: ws))) := by
  obtain ⟨m, h1, h2, h3, h4, h5, h6⟩ := mergeRun_none hc did h
  refine ⟨m, h1, fun hf e hd hs => ?_⟩
  have key := merged_decode hdefl h h3 h4 h5 hf pre post
  have he : (mergedFlags config d.ndim).enc = false := by
    show (decide (1 < d.ndim) && config.testBit 1) = false
    rcases henc with hh | hh
    · rw [decide_eq_false (by omega)]
      rfl
    · rw [hh, Bool.and_false]
  have hlen := merged_words_len h.blk
  rw [he, if_neg (by decide), ← hlen, List.take_length, hd] at key
  obtain ⟨n, hn⟩ : ∃ n, n = (Spec.allBlocks ((a :: as, da) :: (b :: bs, db) :: ws)).length := ⟨_, rfl⟩
  obtain ⟨W, hW⟩ : ∃ W, W = ((a :: as, da) :: (b :: bs, db) :: ws).flatMap (fun w => plainWords 0 w.1) := ⟨_, rfl⟩
  rw [← hn, ← hW] at key
  unfold selsOfWords rawCoords at key
  rw [if_neg (by decide)] at key
  simp only [Res.pure_eq, Res.ok_bind] at key
  obtain ⟨S, hS⟩ : ∃ S, S = addDoffs d.esize 0 (((chunks d.ndim n W).map (recFix none ((none : Option Nat).getD 0))).zip
    ((chunks d.ndim n (W.drop (d.ndim * n))).map (recFix none 1))) := ⟨_, rfl⟩
  rw [← hS] at key
  cases hds : decDsize d d.ndim S with
  | err => rw [hds] at key; simp at key
  | ub => rw [hds] at key; simp at key
  | ok ds =>
    rw [hds] at key
    simp only [Res.ok_bind, Res.ok.injEq] at key
    have hes : e.sels = S := by rw [key]
    have hlt : (a :: as).length < n := by
      rw [hn]
      unfold Spec.allBlocks
      simp only [List.flatMap_cons, List.length_append, List.length_cons]
      omega
    -- recovered start of the block
    have g1 : (S[(a :: as).length]?).map MSel.start = some ((W.drop (d.ndim * (a :: as).length)).take d.ndim) := by
      rw [hS, addDoffs_start]
      rw [map_recFix, map_recFix]
      have hg := chunks_get d.ndim n W _ hlt
      have hl2 : (a :: as).length < (chunks d.ndim n (W.drop (d.ndim * n))).length := by
        rw [chunks_length]
        exact hlt
      have hz : ((chunks d.ndim n W).zip (chunks d.ndim n (W.drop (d.ndim * n))))[(a :: as).length]? =
          some ((W.drop (d.ndim * (a :: as).length)).take d.ndim, (chunks d.ndim n (W.drop (d.ndim * n)))[(a :: as).length]) := by
        rw [List.getElem?_zip_eq_some]
        exact ⟨hg, List.getElem?_eq_getElem hl2⟩
      rw [hz]
      rfl
    -- which is the count of the first block
    have g2 : (W.drop (d.ndim * (a :: as).length)).take d.ndim = a.count := by
      have hA := h.blk (a :: as, da) (by simp)
      have hl1 := flatMap_length_const (fun b : Blk => b.start.drop 0) d.ndim (a :: as) (fun x hx => by simpa using (hA x hx).hs)
      have hW' : W = (a :: as).flatMap (fun b : Blk => b.start.drop 0) ++ (a.count ++ (as.flatMap (fun b : Blk => b.count.drop 0) ++
          ((b :: bs, db) :: ws).flatMap (fun w => plainWords 0 w.1))) := by
        rw [hW, List.flatMap_cons]
        unfold plainWords
        rw [List.flatMap_cons (f := fun b : Blk => b.count.drop 0), List.drop_zero]
        simp only [List.append_assoc]
      rw [hW', drop_app _ _ _ hl1.symm, take_app _ _ _ (hA a (by simp)).hc.symm]
    -- and should be the start of the first block of the second write
    have g3 : (S[(a :: as).length]?).map MSel.start = some b.start := by
      rw [← hes, hs]
      unfold Spec.sels
      rw [List.getElem?_mapIdx]
      have : (Spec.allBlocks ((a :: as, da) :: (b :: bs, db) :: ws))[(a :: as).length]? = some b := by
        unfold Spec.allBlocks
        rw [List.flatMap_cons, List.getElem?_append_right (by simp), List.flatMap_cons]
        simp
      rw [this]
      rfl
    rw [g1, g2] at g3
    exact hne (by simpa using g3)

theorem selDecode_le : ∀ {steps : List Nat} {off : Nat} {r : List Nat}, selDecode steps off = .ok r → selEncode steps r ≤ off
  | [], off, r, h => by simp [selEncode]
  | s :: ss, off, r, h => by
    unfold selDecode at h
    by_cases hs : s = 0
    · rw [if_pos hs] at h
      cases h
    · rw [if_neg hs] at h
      cases hr : selDecode ss (off % s) with
      | err => rw [hr] at h; simp at h
      | ub => rw [hr] at h; simp at h
      | ok r' =>
        rw [hr] at h
        simp only [Res.ok_bind, Res.pure_eq, Res.ok.injEq] at h
        subst h
        have ih := selDecode_le hr
        simp only [selEncode]
        have := Nat.div_add_mod off s
        have e : off / s * s = s * (off / s) := Nat.mul_comm _ _
        omega

theorem selEncode_self : ∀ (l : List Nat) (x : Nat), selEncode (l ++ [1]) (l ++ [x]) = (l.map (fun a => a * a)).sum + x
  | [], x => by simp [selEncode]
  | a :: l, x => by
    simp only [List.cons_append, selEncode, selEncode_self l x, List.map_cons, List.sum_cons]
    omega

/-- A start taken for its own radix table never decodes to itself. -/
theorem selDecode_self {l : List Nat} (hl : l ≠ []) (x : Nat) : selDecode (l ++ [1]) x ≠ .ok (l ++ [x]) := by
  intro h
  have h1 := selDecode_le h
  rw [selEncode_self] at h1
  cases l with
  | nil => exact hl rfl
  | cons a l =>
    rw [List.map_cons, List.sum_cons] at h1
    have : a = 0 := by
      have : a * a = 0 := by omega
      exact Decidable.byContradiction fun hz => absurd (Nat.mul_pos (Nat.pos_of_ne_zero hz) (Nat.pos_of_ne_zero hz)) (by omega)
    subst this
    simp [selDecode] at h

/-- **C24 is violated: selection encoding.** With selection encoding on, as it is by default, the entry of a dataset of two or
more dimensions is flagged as encoded although the coordinates are stored as they are.  No such entry decodes to the blocks
that were written, whatever was written. -/
theorem C24_encode_violated {config : Nat} (hdefl : config.testBit 2 = false) (henc : config.testBit 1 = true) {d : DInfo}
    (hdim : 1 < d.ndim) (did : Nat) {ws : List (List Blk × List Byte)} (h : Spec.Writes d ws) {foff : Nat} (pre post : List Byte) :
    ∃ m, mergeRun config d did none ws = .ok (some m) ∧ (Spec.MFits m foff →
      ∀ e, metaDecode d (pre ++ m.bytes foff ++ post) pre.length = .ok e → e.sels ≠ Spec.sels d.esize (Spec.allBlocks ws)) := by
  have hc : config ≠ 1 := by
    rintro rfl
    revert henc
    decide
  obtain ⟨m, h1, h2, h3, h4, h5, h6⟩ := mergeRun_none hc did h
  refine ⟨m, h1, fun hf e hd hs => ?_⟩
  have key := merged_decode hdefl h h3 h4 h5 hf pre post
  have he : (mergedFlags config d.ndim).enc = true := by
    show (decide (1 < d.ndim) && config.testBit 1) = true
    rw [decide_eq_true hdim, henc]
    rfl
  rw [he, if_pos rfl, hd] at key
  cases hws : ws with
  | nil => exact h.some hws
  | cons w ws' =>
    cases hw : w.1 with
    | nil => exact h.ne w (by rw [hws]; simp) hw
    | cons b bs =>
      have hb : Spec.BlkOK d.ndim b := h.blk w (by rw [hws]; simp) b (by rw [hw]; simp)
      -- the words start with the start of the first block
      obtain ⟨rest, hrest⟩ : ∃ rest, ws.flatMap (fun w => plainWords 0 w.1) = b.start ++ rest := by
        rw [hws, List.flatMap_cons]
        unfold plainWords
        rw [hw, List.flatMap_cons, List.drop_zero]
        simp only [List.append_assoc]
        exact ⟨_, rfl⟩
      have hsl := hb.hs
      have hbne : b.start ≠ [] := by
        intro hh
        rw [hh] at hsl
        simp at hsl
        omega
      obtain ⟨l, x, hlx⟩ : ∃ l x, b.start = l ++ [x] := ⟨_, _, (List.dropLast_append_getLast hbne).symm⟩
      have hll : l.length = d.ndim - 1 := by
        rw [hlx, List.length_append] at hsl
        simp at hsl
        omega
      have hlne : l ≠ [] := by
        intro hh
        rw [hh] at hll
        simp at hll
        omega
      obtain ⟨n, hn⟩ : ∃ n, n = (Spec.allBlocks ws).length := ⟨_, rfl⟩
      have hn1 : ∃ k, n = k + 1 := by
        refine ⟨n - 1, ?_⟩
        rw [hn, hws]
        unfold Spec.allBlocks
        rw [List.flatMap_cons, hw]
        simp
      obtain ⟨k, hk⟩ := hn1
      have hW : (b.start ++ rest).take (d.ndim - 1 + 2 * n) = l ++ (x :: rest.take (2 * n - 1)) := by
        rw [hlx, List.append_assoc, List.take_append, hll, List.take_of_length_le (by omega)]
        have : d.ndim - 1 + 2 * n - (d.ndim - 1) = (2 * n - 1) + 1 := by omega
        rw [this]
        rfl
      rw [← hn, hrest, hW] at key
      unfold selsOfWords rawCoords at key
      rw [if_pos rfl] at key
      simp only [] at key
      rw [take_app _ _ _ hll.symm, drop_app _ _ _ hll.symm, hk, List.take_succ_cons, mapRes] at key
      cases hdec : selDecode (l ++ [1]) x with
      | err => rw [hdec] at key; simp at key
      | ub => rw [hdec] at key; simp at key
      | ok s =>
        rw [hdec] at key
        simp only [Res.ok_bind] at key
        cases hm1 : mapRes (selDecode (l ++ [1])) ((rest.take (2 * (k + 1) - 1)).take k) with
        | err => rw [hm1] at key; simp at key
        | ub => rw [hm1] at key; simp at key
        | ok ss =>
          rw [hm1] at key
          simp only [Res.ok_bind, Res.pure_eq] at key
          cases hm2 : mapRes (selDecode (l ++ [1])) (((x :: rest.take (2 * (k + 1) - 1)).drop (k + 1)).take (k + 1)) with
          | err => rw [hm2] at key; simp at key
          | ub => rw [hm2] at key; simp at key
          | ok cs =>
            rw [hm2] at key
            simp only [Res.ok_bind] at key
            obtain ⟨S, hS⟩ : ∃ S, S = addDoffs d.esize 0 (((s :: ss).map (recFix none ((none : Option Nat).getD 0))).zip
              (cs.map (recFix none 1))) := ⟨_, rfl⟩
            rw [← hS] at key
            cases hds : decDsize d d.ndim S with
            | err => rw [hds] at key; simp at key
            | ub => rw [hds] at key; simp at key
            | ok ds =>
              rw [hds] at key
              simp only [Res.ok_bind, Res.ok.injEq] at key
              have hes : e.sels = S := by rw [key]
              have g1 : (S[0]?).map MSel.start = some b.start := by
                rw [← hes, hs]
                unfold Spec.sels
                rw [List.getElem?_mapIdx]
                have : (Spec.allBlocks ws)[0]? = some b := by
                  rw [hws]
                  unfold Spec.allBlocks
                  rw [List.flatMap_cons, hw]
                  rfl
                rw [this]
                rfl
              rw [hS, addDoffs_start] at g1
              cases cs with
              | nil => simp at g1
              | cons c cs =>
                simp [recFix] at g1
                rw [g1, hlx] at hdec
                exact selDecode_self hlne x hdec

/-- **C24 is violated: compression.** With metadata compression asked for, the entry is flagged as compressed although it is not;
reading it back is an error. -/
theorem C24_deflate_violated {config : Nat} (hdefl : config.testBit 2 = true) {d : DInfo} (did : Nat)
    {ws : List (List Blk × List Byte)} (h : Spec.Writes d ws) {foff : Nat} (pre post : List Byte) :
    ∃ m, mergeRun config d did none ws = .ok (some m) ∧ (Spec.MFits m foff →
      metaDecode d (pre ++ m.bytes foff ++ post) pre.length = .err) := by
  have hc : config ≠ 1 := by
    rintro rfl
    revert hdefl
    decide
  obtain ⟨m, h1, h2, h3, h4, h5, h6⟩ := mergeRun_none hc did h
  refine ⟨m, h1, fun hf => ?_⟩
  have hb := merged_fits hf
  have e : pre ++ m.bytes foff ++ post = pre ++ ((m.hdr foff).bytes ++ leN 4 m.nsel ++ m.sel) ++ post := rfl
  have hh := rdHdr_bytes hb pre (leN 4 m.nsel ++ m.sel ++ post) rfl
  have hn := rd_at pre ((m.hdr foff).bytes) (leN 4 m.nsel) m.sel post (off := pre.length + hdrSize) (n := 4)
      (by simp [Hdr.bytes, hdrSize]) (by simp)
  have f1 : (m.hdr foff).flags.recd = false := by show m.flags.recd = _; rw [h3]; rfl
  have f2 : (m.hdr foff).flags.mul = true := by show m.flags.mul = _; rw [h3]; rfl
  have f3 : (m.hdr foff).flags.defl = true := by show m.flags.defl = _; rw [h3]; exact hdefl
  have hpos : ¬ ((m.hdr foff).metaSize ≤ 0) := by
    show ¬ ((m.metaSize : Int) ≤ 0)
    unfold MReq.metaSize hdrSize
    omega
  rw [e]
  unfold metaDecode
  have hh' : rdHdr (pre ++ ((m.hdr foff).bytes ++ leN 4 m.nsel ++ m.sel) ++ post) pre.length = .ok (m.hdr foff) := by
    simpa [List.append_assoc] using hh
  rw [hh']
  simp only [Res.ok_bind, if_neg hpos, f1, f2, f3, Bool.false_eq_true, false_and, if_false, if_true, Res.pure_eq, hn, and_self]

/-- **C24 is violated: merging alone.** With merging as the only option every write works on an uninitialised request. -/
theorem C24_alone_violated (d : DInfo) (did : Nat) (ws : List (List Blk × List Byte)) (h : Spec.Writes d ws) :
    mergeRun 1 d did none ws = .ub := by
  cases ws with
  | nil => exact absurd rfl h.some
  | cons w ws =>
    unfold mergeRun mergeWrite
    rw [if_neg (h.ne w (by simp)), if_pos (by decide)]
    rfl

/-! ### Concrete cases -/

def mgD : DInfo := ⟨[4, 6], [some 4, some 6], 1⟩

def mgWs : List (List Blk × List Byte) := [([⟨[1, 2], [1, 3]⟩, ⟨[3, 0], [1, 2]⟩], [1, 2, 3, 4, 5]), ([⟨[0, 0], [1, 1]⟩], [6])]

theorem mg_writes : Spec.Writes mgD mgWs := by
  refine ⟨by decide, by decide, ?_⟩
  intro w hw b hb
  simp only [mgWs, List.mem_cons, List.not_mem_nil, or_false] at hw
  rcases hw with rfl | rfl
  · simp only [List.mem_cons, List.not_mem_nil, or_false] at hb
    rcases hb with rfl | rfl <;> exact ⟨rfl, rfl, by decide, by decide⟩
  · simp only [List.mem_cons, List.not_mem_nil, or_false] at hb
    subst hb
    exact ⟨rfl, rfl, by decide, by decide⟩

theorem mg_single : Spec.Writes mgD (mgWs.take 1) :=
  ⟨by decide, fun w hw => mg_writes.ne w (List.mem_of_mem_take hw), fun w hw => mg_writes.blk w (List.mem_of_mem_take hw)⟩

/-- Merging and sharing: two writes. -/
example : okWith (fun m => decide (m.map MReq.data = some [1, 2, 3, 4, 5, 6]) && okWith (fun e => decide
    (e.sels = [⟨[1, 2], [1, 2], 0⟩, ⟨[3, 0], [0, 0], 2⟩, ⟨[1, 3], [1, 1], 2⟩])) (metaDecode mgD ((m.getD (mInit 9 mgD 0 1)).bytes 0) 0))
    (mergeRun 9 mgD 0 none mgWs) = true := by decide +kernel

/-- The conditions on the sizes hold. -/
example : ∃ m, mergeRun 9 mgD 0 none mgWs = .ok (some m) ∧ Spec.MFits m 0 := by
  have h : okWith (fun m => match m with
    | some m => decide ((m.bytes 0).length < 2 ^ 31 ∧ m.did < 2 ^ 31 ∧ m.nsel < 2 ^ 31 ∧ m.data.length < 2 ^ 63)
    | none => false) (mergeRun 9 mgD 0 none mgWs) = true := by decide +kernel
  obtain ⟨m, e, h⟩ := okWith_iff h
  cases m with
  | none => cases h
  | some m =>
    have h := of_decide_eq_true h
    exact ⟨m, e, h.1, h.2.1, h.2.2.1, by decide, h.2.2.2⟩

example : (9 : Nat) ≠ 1 ∧ (9 : Nat).testBit 2 = false ∧ (9 : Nat).testBit 1 = false := by decide

/-- The default options with merging. -/
example : (0x0B : Nat).testBit 2 = false ∧ (0x0B : Nat).testBit 1 = true ∧ 1 < mgD.ndim := by decide

end Verif.Props
