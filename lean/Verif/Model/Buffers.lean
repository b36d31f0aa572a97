import Verif.Model.Bytes

/-
Internal buffers: budget accounting (src/H5VL_log_filei.cpp L84-107, L321-334) and the buffer pool (L508-602).

`malloc` is a parameter: every call carries its result (`none` for NULL, otherwise the address).  What `malloc` guarantees is
the predicate `FreshAt` / `MallocOK`, used as a hypothesis on runs.
-/

namespace Verif

/-- Values of `size_t`. -/
def sizeMod : Nat := 2 ^ 64

/-! ### Budget -/

/-- `bsize` and `bused` of the file, and the live buffers: address and the word stored in front of the buffer. -/
structure Budget where
  bsize : Int
  bused : Nat
  live : List (Nat × Nat)
deriving DecidableEq, Repr

/-- Outcome of a call. -/
inductive Outcome where
  | done
  | failed
  | undef
deriving DecidableEq, Repr

/-- `LOG_VOL_BSIZE_UNLIMITED`, src/H5VL_log.h.in. -/
def unlimited : Int := -1

/-- The constructor of `H5VL_log_file_t` (L1086-1103) and `H5VL_log_file_create` (src/H5VL_log_file.cpp L107-135) set
`bsize` but not `bused`: `garbage` is what the memory contained. -/
def Budget.init (bsize : Int) (garbage : Nat) : Budget := ⟨bsize, garbage % sizeMod, []⟩

/-- `H5VL_log_filei_balloc`; `p` is the result of `malloc (size + sizeof (size_t))`, minus the header. All sums are `size_t`
sums. -/
def balloc (st : Budget) (size : Nat) (p : Option Nat) : Outcome × Budget :=
  if st.bsize ≠ unlimited ∧ (st.bsize % (sizeMod : Int)).toNat < (st.bused + size) % sizeMod then (.failed, st)
  else
    p.elim (.failed, st) (fun a =>
      -- `*bp = size` writes 8 bytes
      if (size + 8) % sizeMod < 8 then (.undef, st)
      else (.done, { st with bused := (st.bused + size) % sizeMod, live := (a, size) :: st.live }))

/-- `H5VL_log_filei_bfree`; the header word is read back. -/
def bfree (st : Budget) (p : Option Nat) : Outcome × Budget :=
  p.elim (.failed, st) (fun a =>
    (st.live.find? (fun b => b.1 == a)).elim (.undef, st) (fun b =>
      (.done, { st with bused := (st.bused + (sizeMod - b.2 % sizeMod)) % sizeMod, live := st.live.erase b })))

/-- Calls. -/
inductive BufCall where
  | alloc (size : Nat) (p : Option Nat)
  | free (p : Option Nat)
deriving DecidableEq, Repr

def bufStep (st : Budget) : BufCall → Outcome × Budget
  | .alloc size p => balloc st size p
  | .free p => bfree st p

/-- A sequence of calls; the state after each of them. -/
def bufRun (st : Budget) : List BufCall → Budget
  | [] => st
  | c :: r => bufRun (bufStep st c).2 r

/-! ### Pool -/

/-- `H5VL_log_buffer_block_t` as addresses. -/
structure PBlock where
  beg : Nat
  fin : Nat
  cur : Nat
deriving DecidableEq, Repr

/-- `H5VL_log_buffer_pool_t`: the list from `head` and the list from `free_blocks`. -/
structure Pool where
  bsize : Nat
  inf : Bool
  used : List PBlock
  spare : List PBlock
deriving DecidableEq, Repr

/-- `DEFAULT_SIZE`, src/H5VL_log_filei.cpp L37. -/
def poolDefault : Nat := 209715200

/-- `H5VL_log_filei_pool_new_block`: `malloc` returned `p`. -/
def poolBlock (size : Nat) (p : Nat) : PBlock := ⟨p, p + size, p⟩

/-- `H5VL_log_filei_pool_init` with the address returned by `malloc`. -/
def poolInit (bsize : Int) (p : Nat) : Pool :=
  if bsize < 0 then ⟨poolDefault, true, [poolBlock poolDefault p], []⟩
  else ⟨bsize.toNat, false, if bsize = 0 then [] else [poolBlock bsize.toNat p], []⟩

/-- Hand out `size` bytes of the first block (L547-548). -/
def poolTake (st : Pool) (size : Nat) : Res (Pool × Nat) :=
  st.used.head?.elim .ub (fun h =>
    .ok ({ st with used := { h with cur := h.cur + size } :: st.used.tail }, h.cur))

/-- Size of the new block if `malloc` is needed (L533-541). -/
def poolNeeds (st : Pool) (size : Nat) : Option Nat :=
  st.used.head?.elim none (fun h =>
    if h.fin < h.cur + size then
      if st.inf then if st.bsize < size then some size else if st.spare = [] then some st.bsize else none
      else none
    else none)

/-- `H5VL_log_filei_pool_alloc` (L525-549); `p` is the result of `malloc` if it is called.  An empty list is a null
pointer. -/
def poolAlloc (st : Pool) (size : Nat) (p : Option Nat) : Res (Pool × Nat) :=
  st.used.head?.elim .ub (fun h =>
    if h.fin < h.cur + size then
      if !st.inf then .err
      else if st.bsize < size then
        p.elim .err (fun a => poolTake { st with used := poolBlock size a :: st.used } size)
      else
        st.spare.head?.elim
          (p.elim .err (fun a => poolTake { st with used := poolBlock st.bsize a :: st.used } size))
          (fun b => poolTake { st with used := b :: st.used, spare := st.spare.tail } size)
    else poolTake st size)

/-- `H5VL_log_filei_pool_free` (L569-583): all buffers are released; blocks after the first one go to the front of the spare
list. -/
def poolFree (st : Pool) : Res Pool :=
  st.used.head?.elim .ub (fun h =>
    .ok { st with
      used := [{ h with cur := h.beg }]
      spare := st.used.tail.map (fun b => { b with cur := b.beg }) ++ st.spare })

end Verif
