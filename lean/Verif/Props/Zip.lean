import Verif.Model.Zip
import Verif.Model.File
import Verif.Props.FileEx

/-
C25: metadata compression.
-/

namespace Verif.Props

/-- The request with the compression flag cleared. -/
def clearZ (r : WReq) : WReq := { r with flags := { r.flags with defl := false } }

theorem clearZ_metaSize (r : WReq) : (clearZ r).metaSize = r.metaSize := rfl
theorem clearZ_hash (r : WReq) : wreqHash (clearZ r) = wreqHash r := rfl
theorem clearZ_eq (r k : WReq) : wreqEq (clearZ r) (clearZ k) = wreqEq r k := rfl

theorem clearZ_find (r : WReq) (l : List WReq) :
    hashFind (clearZ r) (l.map clearZ) = (hashFind r l >>= fun o => .ok (o.map clearZ)) := by
  induction l with
  | nil => rfl
  | cons k ks ih =>
    rw [List.map_cons, hashFind, hashFind, clearZ_hash, clearZ_hash, clearZ_eq]
    by_cases h : wreqHash r = wreqHash k
    · rw [if_pos h, if_pos h]
      cases wreqEq r k with
      | err => rfl
      | ub => rfl
      | ok b =>
        rw [Res.ok_bind, Res.ok_bind]
        cases b
        · exact ih
        · rfl
    · rw [if_neg h, if_neg h]
      exact ih

theorem mkWReq_clearZ (cfg : Cfg) (d : DInfo) (did : Nat) (bs : List Blk) (n : Nat) (data : List Byte) :
    clearZ (mkWReqZ cfg d did bs n data) = mkWReq cfg d did bs n data := by
  unfold clearZ mkWReqZ mkWReq wreqFlags
  rfl

theorem mkRef_clearZ (r k : WReq) (n : Nat) : mkRef (clearZ r) (clearZ k) n = mkRef r k n := rfl

/-- A process with compression corresponds to one without. -/
structure SameZ (a : RankZ) (b : Rank) : Prop where
  wreqs : a.rank.wreqs = b.wreqs
  nflushed : a.rank.nflushed = b.nflushed
  mdsize : a.rank.mdsize = b.mdsize
  hash : a.rank.hash.map clearZ = b.hash

theorem zipStep_clear {z : ZlibS} {zb : Nat} {r : WReq} {y : Nat × WReq} (h : zipStep z zb r = .ok y) : y.2 = clearZ r := by
  unfold zipStep at h
  by_cases hd : r.flags.defl = true
  · rw [if_pos hd] at h
    obtain ⟨n, hn⟩ : ∃ n, n = max zb r.selBuf.length := ⟨_, rfl⟩
    simp only [← hn] at h
    have hz : ∀ c, zipCompress z r.selBuf n = .ok c →
        ¬ ((if c.1 = true then (1 : Int) else 0) = 0 ∧ c.2.1 < r.selBuf.length) := by
      intro c hc
      unfold zipCompress at hc
      split at hc
      · injection hc with hc; subst hc; simp
      · split at hc
        · cases hc
        · injection hc with hc; subst hc; simp; omega
        · injection hc with hc; subst hc; simp
    cases hc : zipCompress z r.selBuf n with
    | err => rw [hc] at h; cases h
    | ub => rw [hc] at h; cases h
    | ok c =>
      rw [hc, Res.ok_bind, if_neg (hz c hc)] at h
      injection h with h
      rw [← h]; rfl
  · rw [if_neg hd] at h
    injection h with h
    rw [← h]
    show r = clearZ r
    have : r.flags.defl = false := by simpa using hd
    unfold clearZ
    cases r with
    | mk a f b c e g i =>
      cases f
      simp at this
      subst this
      rfl

theorem dedup_clearZ (cfg : Cfg) (r : WReq) (a b : Rank) (hm : a.mdsize = b.mdsize) (hh : a.hash.map clearZ = b.hash) :
    dedup cfg (clearZ r) b = (dedup cfg r a >>= fun x => .ok (clearZ x.1, x.2.map clearZ)) := by
  unfold dedup
  have hl : (clearZ r).selBuf = r.selBuf := rfl
  rw [hl, ← hh, clearZ_find, ← hm]
  by_cases hc : (cfg.share && decide (8 < r.selBuf.length)) = true
  · rw [if_pos hc, if_pos hc]
    cases hashFind r a.hash with
    | err => rfl
    | ub => rfl
    | ok o =>
      cases o with
      | none => simp [Res.ok_bind, Res.pure_eq]
      | some k => simp [Res.ok_bind, Res.pure_eq, mkRef_clearZ]; rfl
  · rw [if_neg hc, if_neg hc]
    rfl

theorem writeRankZ_same {z : ZlibS} {cfg : Cfg} {c : WCall} {a a' : RankZ} {b : Rank} (h : SameZ a b)
    (e : writeRankZ z cfg c.d c.did c.bs c.data a = .ok a') :
    ∃ b', writeRank cfg c.d c.did c.bs c.data b = .ok b' ∧ SameZ a' b' := by
  unfold writeRankZ at e
  unfold writeRank
  by_cases hb : c.bs = []
  · rw [if_pos hb] at e
    injection e with e
    subst e
    exact ⟨b, by rw [if_pos hb], h⟩
  · rw [if_neg hb] at e
    rw [if_neg hb]
    have hk : mkWReq cfg c.d c.did c.bs b.mdsize c.data = clearZ (mkWReqZ cfg c.d c.did c.bs a.rank.mdsize c.data) := by
      rw [mkWReq_clearZ, h.mdsize]
    rw [hk, dedup_clearZ cfg _ a.rank b h.mdsize h.hash]
    cases hx : dedup cfg (mkWReqZ cfg c.d c.did c.bs a.rank.mdsize c.data) a.rank with
    | err => rw [hx] at e; cases e
    | ub => rw [hx] at e; cases e
    | ok x =>
      rw [hx, Res.ok_bind] at e
      cases hy : zipStep z a.zb x.1 with
      | err => rw [hy] at e; cases e
      | ub => rw [hy] at e; cases e
      | ok y =>
        rw [hy, Res.ok_bind] at e
        injection e with e
        subst e
        refine ⟨_, rfl, ?_, ?_, ?_, ?_⟩
        · show a.rank.wreqs ++ [y.2] = b.wreqs ++ [clearZ x.1]
          rw [h.wreqs, zipStep_clear hy]
        · exact h.nflushed
        · show a.rank.mdsize + y.2.metaSize = b.mdsize + (clearZ x.1).metaSize
          rw [h.mdsize, zipStep_clear hy]
        · rfl

theorem writesRankZ_same {z : ZlibS} {cfg : Cfg} {cs : List WCall} {a a' : RankZ} {b : Rank} (h : SameZ a b)
    (e : writesRankZ z cfg cs a = .ok a') :
    ∃ b', writesRank cfg cs b = .ok b' ∧ SameZ a' b' := by
  induction cs generalizing a b with
  | nil =>
    injection e with e
    subst e
    exact ⟨b, rfl, h⟩
  | cons c cs ih =>
    rw [writesRankZ] at e
    cases hw : writeRankZ z cfg c.d c.did c.bs c.data a with
    | err => rw [hw] at e; cases e
    | ub => rw [hw] at e; cases e
    | ok a1 =>
      rw [hw, Res.ok_bind] at e
      obtain ⟨b1, h1, h2⟩ := writeRankZ_same h hw
      obtain ⟨b', h3, h4⟩ := ih h2 e
      exact ⟨b', by rw [writesRank, h1, Res.ok_bind, h3], h4⟩

/-- **C25.** For every compression library and every sequence of writes that succeeds with metadata compression on, the same
sequence succeeds with it off, and the metadata of every entry, their sizes and their order are the same bytes in both
cases; so every entry decodes to the same blocks. -/
theorem C25_transparent (z : ZlibS) (cfg : Cfg) (cs : List WCall) (a : RankZ)
    (e : writesRankZ z cfg cs RankZ.init = .ok a) :
    ∃ b, writesRank cfg cs Rank.init = .ok b ∧ a.rank.metaBytes = b.metaBytes ∧ a.rank.wreqs = b.wreqs ∧
      a.rank.mdsize = b.mdsize := by
  obtain ⟨b, h1, h2⟩ := writesRankZ_same ⟨rfl, rfl, rfl, rfl⟩ e
  refine ⟨b, h1, ?_, h2.wreqs, h2.mdsize⟩
  unfold Rank.metaBytes
  rw [h2.wreqs]

/-- The option never makes a write fail unless the library reports an error. -/
theorem C25_succeeds (z : ZlibS) (hz : ∀ x n, z.short x n ≠ .error) (cfg : Cfg) (cs : List WCall) (b : Rank)
    (e : writesRank cfg cs Rank.init = .ok b) : ∃ a, writesRankZ z cfg cs RankZ.init = .ok a := by
  have step : ∀ (cs : List WCall) (a : RankZ) (b b' : Rank), SameZ a b → writesRank cfg cs b = .ok b' →
      ∃ a', writesRankZ z cfg cs a = .ok a' := by
    intro cs
    induction cs with
    | nil => intro a b b' _ _; exact ⟨a, rfl⟩
    | cons c cs ih =>
      intro a b b' h e
      rw [writesRank] at e
      cases hw : writeRank cfg c.d c.did c.bs c.data b with
      | err => rw [hw] at e; cases e
      | ub => rw [hw] at e; cases e
      | ok b1 =>
        rw [hw, Res.ok_bind] at e
        have hex : ∃ a1, writeRankZ z cfg c.d c.did c.bs c.data a = .ok a1 := by
          unfold writeRankZ
          unfold writeRank at hw
          by_cases hb : c.bs = []
          · exact ⟨a, by rw [if_pos hb]⟩
          · rw [if_neg hb] at hw
            rw [if_neg hb]
            have hk : mkWReq cfg c.d c.did c.bs b.mdsize c.data =
                clearZ (mkWReqZ cfg c.d c.did c.bs a.rank.mdsize c.data) := by
              rw [mkWReq_clearZ, h.mdsize]
            rw [hk, dedup_clearZ cfg _ a.rank b h.mdsize h.hash] at hw
            cases hx : dedup cfg (mkWReqZ cfg c.d c.did c.bs a.rank.mdsize c.data) a.rank with
            | err => rw [hx] at hw; cases hw
            | ub => rw [hx] at hw; cases hw
            | ok x =>
              rw [Res.ok_bind]
              have hc : ∀ n, ∃ c', zipCompress z x.1.selBuf n = .ok c' := by
                intro n
                unfold zipCompress
                split
                · exact ⟨_, rfl⟩
                · cases hs : z.short x.1.selBuf n with
                  | error => exact absurd hs (hz _ _)
                  | unread => exact ⟨_, rfl⟩
                  | filled => exact ⟨_, rfl⟩
              have hy : ∃ y, zipStep z a.zb x.1 = .ok y := by
                unfold zipStep
                split
                · obtain ⟨c', hc'⟩ := hc (max a.zb x.1.selBuf.length)
                  simp only [hc', Res.ok_bind]
                  repeat' split
                  all_goals exact ⟨_, rfl⟩
                · exact ⟨_, rfl⟩
              obtain ⟨y, hy⟩ := hy
              exact ⟨_, by rw [hy]; rfl⟩
        obtain ⟨a1, ha1⟩ := hex
        obtain ⟨b2, h3, h4⟩ := writeRankZ_same h ha1
        rw [hw] at h3
        injection h3 with h3
        subst h3
        obtain ⟨a', ha'⟩ := ih a1 b1 b' h4 e
        exact ⟨a', by rw [writesRankZ, ha1, Res.ok_bind, ha']⟩
  exact step cs _ _ _ ⟨rfl, rfl, rfl, rfl⟩ e

/-- **The option has no effect.** No entry is ever compressed, however well its selections compress: the success of the
compression is tested with the wrong sense. -/
theorem C25_never_compressed (z : ZlibS) (cfg : Cfg) (cs : List WCall) (a : RankZ)
    (e : writesRankZ z cfg cs RankZ.init = .ok a) : ∀ r ∈ a.rank.wreqs, r.flags.defl = false := by
  have step : ∀ (cs : List WCall) (a a' : RankZ), (∀ r ∈ a.rank.wreqs, r.flags.defl = false) →
      writesRankZ z cfg cs a = .ok a' → ∀ r ∈ a'.rank.wreqs, r.flags.defl = false := by
    intro cs
    induction cs with
    | nil => intro a a' h e; injection e with e; subst e; exact h
    | cons c cs ih =>
      intro a a' h e
      rw [writesRankZ] at e
      cases hw : writeRankZ z cfg c.d c.did c.bs c.data a with
      | err => rw [hw] at e; cases e
      | ub => rw [hw] at e; cases e
      | ok a1 =>
        rw [hw, Res.ok_bind] at e
        refine ih a1 a' ?_ e
        unfold writeRankZ at hw
        by_cases hb : c.bs = []
        · rw [if_pos hb] at hw
          injection hw with hw
          rw [← hw]; exact h
        · rw [if_neg hb] at hw
          cases hx : dedup cfg (mkWReqZ cfg c.d c.did c.bs a.rank.mdsize c.data) a.rank with
          | err => rw [hx] at hw; cases hw
          | ub => rw [hx] at hw; cases hw
          | ok x =>
            rw [hx, Res.ok_bind] at hw
            cases hy : zipStep z a.zb x.1 with
            | err => rw [hy] at hw; cases hw
            | ub => rw [hy] at hw; cases hw
            | ok y =>
              rw [hy, Res.ok_bind] at hw
              injection hw with hw
              rw [← hw]
              intro r hr
              rcases List.mem_append.mp hr with hr | hr
              · exact h r hr
              · rw [List.mem_singleton.mp hr, zipStep_clear hy]; rfl
  exact step cs _ _ (fun r hr => by cases hr) e

/-! ### Concrete case -/

/-- A library that compresses everything to three bytes (as far as the code can tell). -/
def zxZ : ZlibS := { comp := fun _ => [0x78, 0x9c, 3], bound := fun n => n + 13, short := fun _ _ => .filled }

def zxD : DInfo := ⟨[8, 8], [some 8, some 8], 1⟩

def zxCalls : List WCall :=
  [⟨zxD, 0, [⟨[0, 0], [2, 2]⟩, ⟨[4, 4], [2, 2]⟩], [1, 2, 3, 4, 5, 6, 7, 8]⟩,
   ⟨zxD, 0, [⟨[0, 0], [2, 2]⟩, ⟨[4, 4], [2, 2]⟩], [9, 2, 3, 4, 5, 6, 7, 8]⟩]

example : ∃ a, writesRankZ zxZ ⟨true, true⟩ zxCalls RankZ.init = .ok a ∧ a.rank.wreqs.length = 2 := by
  have h : okWith (fun a => decide (a.rank.wreqs.length = 2)) (writesRankZ zxZ ⟨true, true⟩ zxCalls RankZ.init) = true := by
    decide +kernel
  obtain ⟨a, e, h⟩ := okWith_iff h
  exact ⟨a, e, by simpa using h⟩

example : ∀ x n, zxZ.short x n ≠ .error := fun _ _ h => by cases h

end Verif.Props
