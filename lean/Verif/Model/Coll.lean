import Verif.Model.File
import Verif.Model.Groups
import Mathlib.Data.List.Dedup

/-
Collective calls: every process runs its own program, and a collective call completes once every process of its communicator has
made it.  The programs of the data flush, the metadata flush, the file flush, the blocking read and the close are those of
src/H5VL_logi_nb.cpp L315-339, L341-424, L522-590, L592-894, src/H5VL_log_filei_meta.cpp L49-320, src/H5VL_log_filei.cpp L655-687,
L710-842 and src/H5VL_log_dataseti.cpp L1034-1141.

All MPI collectives, and the calls to HDF5 that must be made by all processes (creation of a dataset, writing an attribute, close),
are taken to wait for all processes: a program may not rely on anything else.  No merging, no aligned layout.
-/

namespace Verif

/-- Collective calls. -/
inductive CKind where
  /-- `MPI_Allreduce` with `MPI_SUM`. -/
  | sum
  /-- `MPI_Allreduce` with `MPI_MAX`, of two numbers. -/
  | max
  /-- `MPI_Exscan` with `MPI_SUM`; the first process gets nothing. -/
  | exscan
  /-- `MPI_Gather` to the first process. -/
  | gather
  /-- `MPI_Scatter` of two numbers for each process, from the first. -/
  | scatter
  /-- `MPI_Barrier`. -/
  | barrier
  /-- `H5VLdataset_create` of `_ld_N`. -/
  | mkData
  /-- `H5VLdataset_create` of `_md_N`. -/
  | mkMeta
  /-- `MPI_File_write_at_all`. -/
  | write
  /-- `H5VLdataset_close`. -/
  | closeD
  /-- Write of the file attribute. -/
  | putAttr
  /-- `MPI_File_set_view`. -/
  | setView
  /-- `MPI_File_read_at_all`. -/
  | read
  /-- `MPI_File_close`. -/
  | closeF
deriving DecidableEq, Repr

/-- What a process gives to a collective call: numbers and bytes. -/
structure CArg where
  nums : List Nat := []
  data : List Byte := []
deriving DecidableEq, Repr

def CArg.num (i : Nat) (a : CArg) : Nat := a.nums.getD i 0

/-- The program of one process: it ends, or makes a collective call and goes on with what the call returns. -/
inductive Prog (α : Type) where
  | ret (a : α)
  | call (c : Comm) (k : CKind) (arg : CArg) (next : List Nat → Prog α)

/-- Sequence of two programs. -/
def Prog.bind {α β : Type} : Prog α → (α → Prog β) → Prog β
  | .ret a, f => f a
  | .call c k a n, f => .call c k a (fun x => (n x).bind f)

/-- A call whose result is not used. -/
def Prog.tell {α : Type} (c : Comm) (k : CKind) (arg : CArg) (p : Prog α) : Prog α := .call c k arg (fun _ => p)

/-- The file of a communicator: its bytes, the log and metadata datasets in it, the number of metadata datasets in its
attribute, and the addresses HDF5 gives to new datasets. -/
structure Store where
  disk : Mem
  lds : List Ext
  mds : List Ext
  saved : Nat
  addr : Nat → Nat

/-- Address of the next dataset. -/
def Store.next (w : Store) : Nat := w.addr (w.lds.length + w.mds.length)

/-- Effect of a collective call on the file and its result for every process (by position in the communicator). -/
def perform (k : CKind) (args : List CArg) (w : Store) : Store × (Nat → List Nat) :=
  match k with
  | .sum => (w, fun _ => [(args.map (CArg.num 0)).sum])
  | .max => (w, fun _ => [(args.map (CArg.num 0)).foldr Nat.max 0, (args.map (CArg.num 1)).foldr Nat.max 0])
  | .exscan => (w, fun i => if i = 0 then [] else [((args.map (CArg.num 0)).take i).sum])
  | .gather => (w, fun i => if i = 0 then args.map (CArg.num 0) else [])
  | .scatter => (w, fun i => let s := (args.getD 0 {}); [s.num (2 * i), s.num (2 * i + 1)])
  | .mkData => ({ w with lds := w.lds ++ [⟨w.next, (args.getD 0 {}).num 0⟩] }, fun _ => [w.next])
  | .mkMeta => ({ w with mds := w.mds ++ [⟨w.next, (args.getD 0 {}).num 0⟩] }, fun _ => [w.next])
  | .write => ({ w with disk := args.foldl (fun d a => writeAt d (a.num 0) a.data) w.disk }, fun _ => [])
  | .putAttr => ({ w with saved := (args.getD 0 {}).num 0 }, fun _ => [])
  | _ => (w, fun _ => [])

/-! ### Processes running side by side -/

/-- `np` processes; `gc r` is `fp->group_comm` of process `r`: the communicator of the file itself (`.world`) without subfiling. -/
structure Net where
  np : Nat
  gc : Nat → Comm

/-- The processes of a communicator, in rank order. -/
def Net.mem (n : Net) : Comm → List Nat
  | .world => List.range n.np
  | c => (List.range n.np).filter (fun r => decide (n.gc r = c))

/-- `gc` gives the communicators of the groups: none is that of the file if there is subfiling, all are if not. -/
def Net.ok (n : Net) (sub : Bool) : Prop := 0 < n.np ∧ ∀ r < n.np, (n.gc r = .world ↔ sub = false)

/-- The communicators of the groups. -/
def Net.comms (n : Net) : List Comm := ((List.range n.np).map n.gc).dedup

/-- Position of a process in its group: `fp->group_rank`. -/
def Net.pos (n : Net) (r : Nat) : Nat := (n.mem (n.gc r)).idxOf r

/-- Number of processes of a group: `fp->group_np`. -/
def Net.len (n : Net) (c : Comm) : Nat := (n.mem c).length

/-- All processes and all files. -/
structure Sys (α : Type) where
  prog : Nat → Prog α
  file : Comm → Store

def Prog.arg {α : Type} : Prog α → CArg
  | .ret _ => {}
  | .call _ _ a _ => a

def Prog.next {α : Type} : Prog α → List Nat → Prog α
  | .ret a, _ => .ret a
  | .call _ _ _ n, x => n x

/-- The process waits in call `k` on communicator `c`. -/
def Prog.at {α : Type} (c : Comm) (k : CKind) : Prog α → Prop
  | .ret _ => False
  | .call c' k' _ _ => c' = c ∧ k' = k

/-- Call `k` on `c` can complete: every process of `c` waits in it. -/
def Sys.ready {α : Type} (n : Net) (c : Comm) (k : CKind) (s : Sys α) : Prop :=
  n.mem c ≠ [] ∧ ∀ r ∈ n.mem c, (s.prog r).at c k

/-- Completion of a call on `c`. -/
def Sys.fire {α : Type} (n : Net) (c : Comm) (k : CKind) (s : Sys α) : Sys α :=
  let e := perform k ((n.mem c).map (fun r => (s.prog r).arg)) (s.file c)
  { prog := fun r => if r ∈ n.mem c then (s.prog r).next (e.2 ((n.mem c).idxOf r)) else s.prog r
    file := fun c' => if c' = c then e.1 else s.file c' }

/-- One step of the system: some collective call completes. -/
def Sys.Step {α : Type} (n : Net) (s t : Sys α) : Prop := ∃ c k, s.ready n c k ∧ t = s.fire n c k

/-- `m` steps. -/
inductive Sys.Steps {α : Type} (n : Net) : Nat → Sys α → Sys α → Prop
  | refl (s : Sys α) : Steps n 0 s s
  | head {m : Nat} {s t u : Sys α} : s.Step n t → Steps n m t u → Steps n (m + 1) s u

/-- All processes have ended. -/
def Sys.done {α : Type} (n : Net) (s : Sys α) : Prop := ∀ r < n.np, ∃ a, s.prog r = .ret a

/-- The processes hang: no call can complete although some process has not ended. -/
def Sys.stuck {α : Type} (n : Net) (s : Sys α) : Prop := ¬ s.done n ∧ ¬ ∃ t, s.Step n t

/-! ### Programs of the connector -/

/-- Options that matter here. -/
structure COpt where
  /-- `H5VL_FILEI_CONFIG_SUBFILING`. -/
  sub : Bool
  /-- `H5VL_FILEI_CONFIG_PASSTHRU`. -/
  pass : Bool
  /-- The transfer mode of the file is collective. -/
  coll : Bool
deriving DecidableEq, Repr

/-- Part of the file handle of one process: request queue, `metadirty`, `nmdset`. -/
structure Proc where
  k : Rank
  dirty : Bool
  nmd : Nat
deriving DecidableEq, Repr

/-- Queues of the processes of a group. -/
def Net.ranks (n : Net) (p : Nat → Proc) (c : Comm) : List Rank := (n.mem c).map (fun r => (p r).k)

/-- Result number `i` of a call. -/
def numAt (x : List Nat) (i : Nat) : Nat := x.getD i 0

/-- `H5VL_log_nb_flush_write_reqs`, logi_nb.cpp L592-894, on a process whose group communicator is `g`.  In passthru mode the data
is written by a collective `H5Dwrite` instead of `MPI_File_write_at_all` (L803-840): the same call here. -/
def flushP (sub : Bool) (g : Comm) (p : Proc) : Prog Proc :=
  let size := p.k.localSize
  .call .world .sum { nums := [size] } fun all =>
  .call .world .exscan { nums := [size] } fun off =>
  let rest := fun (gsize goff : Nat) =>
    if numAt all 0 ≠ 0 then
      if gsize ≠ 0 then
        Prog.call g .mkData { nums := [gsize] } fun doff =>
        .tell g .write { nums := [goff + numAt doff 0], data := p.k.pending.flatMap (fun r => r.data) } <|
        .tell g .closeD {} <|
        .ret { p with k := p.k.flushAt (goff + numAt doff 0), dirty := true }
      else .ret { p with k := p.k.setLocal, dirty := true }
    else .ret { p with k := p.k.setLocal }
  if sub then
    .call g .sum { nums := [size] } fun gall =>
    .call g .exscan { nums := [size] } fun goff => rest (numAt gall 0) (numAt goff 0)
  else rest (numAt all 0) (numAt off 0)

/-- `mdoffs_snd`: offset of every process and the total, filei_meta.cpp L133-141. -/
def sendOffs (sizes : List Nat) : List Nat := (exscan 0 sizes).flatMap (fun o => [o, sizes.sum])

/-- `H5VL_log_filei_metaflush`, filei_meta.cpp L49-320, on process number `i` of the `n` of its group. -/
def metaP (g : Comm) (i n : Nat) (p : Proc) : Prog Proc :=
  let size := (if i = 0 then 8 * (n + 1) else 0) + (p.k.wreqs.map WReq.metaSize).sum
  .call g .gather { nums := [size] } fun sizes =>
  .call g .scatter { nums := if i = 0 then sendOffs sizes else [] } fun rb =>
  if 8 * (n + 1) < numAt rb 1 then
    .call g .mkMeta { nums := [numAt rb 1] } fun doff =>
    .tell g .write { nums := [numAt rb 0 + numAt doff 0],
                     data := (if i = 0 then putWords (n :: inscan 0 sizes) else []) ++ p.k.metaBytes } <|
    .tell g .closeD {} <|
    .tell .world .barrier {} <|
    .ret { k := Rank.init, dirty := false, nmd := p.nmd + 1 }
  else .ret { k := Rank.init, dirty := false, nmd := p.nmd }

/-- `H5VL_log_filei_flush` without queued reads, filei.cpp L669-687. -/
def fileFlushP (sub : Bool) (g : Comm) (p : Proc) : Prog Proc :=
  .call .world .max { nums := [p.k.pending.length, 0] } fun n =>
  if 0 < numAt n 0 then flushP sub g p else .ret p

/-- The calls of `H5VL_log_nb_perform_read` after the search in the index, logi_nb.cpp L389-424; `hit`: the search found
something. -/
def fetchP (pass hit : Bool) (g : Comm) (p : Proc) : Prog Proc :=
  if pass then .ret p
  else if hit then .tell g .setView {} <| .tell g .read {} <| .tell g .setView {} <| .ret p
  else .tell g .read {} <| .ret p

/-- `H5VL_log_dataseti_read`, dataseti.cpp L1034-1141, blocking, without subfiling, by `np` processes.  `sel = none`: the selection
is empty (L1057); `sel = some hit`: it is not, and the log has entries that meet it, or not. Reading the metadata datasets
(L326-416 of filei_meta.cpp) is not collective. -/
def readP (o : COpt) (g : Comm) (i n np : Nat) (sel : Option Bool) (p : Proc) : Prog Proc :=
  match sel with
  | none => .ret p
  | some hit =>
    (if o.coll || decide (np = 1) then
      .call .world .max { nums := [p.k.pending.length, 0] } fun x =>
      if 0 < numAt x 0 then flushP o.sub g p else .ret p
    else .ret p : Prog Proc).bind fun p =>
    (if p.dirty then metaP g i n p else .ret p : Prog Proc).bind fun p =>
    fetchP o.pass hit g p

/-- `H5VL_log_filei_close` of a file that is not read-only, filei.cpp L735-842. -/
def closeP (sub : Bool) (g : Comm) (i n : Nat) (p : Proc) : Prog Proc :=
  (flushP sub g p).bind fun p =>
  (metaP g i n p).bind fun p =>
  .tell g .putAttr { nums := [p.nmd] } <|
  (if sub then Prog.tell .world .putAttr { nums := [0] } else id) <|
  .tell g .closeF {} <|
  .ret p

end Verif
