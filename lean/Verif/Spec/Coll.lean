import Verif.Model.Coll

/-
What it means that processes complete a collective operation, whatever the order in which they run.
-/

namespace Verif

/-- `st` is the state of the group `c` as a file of its own. -/
def Net.Sees (n : Net) (c : Comm) (st : FState) (p : Nat → Proc) (W : Comm → Store) : Prop :=
  st.ranks = n.ranks p c ∧ st.disk = (W c).disk ∧ st.lds = (W c).lds ∧ st.mds = (W c).mds

end Verif

namespace Verif.Spec

open Verif

/-- Every run of the processes ends, after the same number of collective calls, with the results `a` and the files `W'`: before that
number is reached some call can always complete. -/
def Completes {α : Type} (n : Net) (P : Nat → Prog α) (W : Comm → Store) (a : Nat → α) (W' : Comm → Store) : Prop :=
  ∃ m, ∀ l t, Sys.Steps n l ⟨P, W⟩ t →
    l ≤ m ∧ (l < m → ∃ u, t.Step n u) ∧ (l = m → (∀ r < n.np, t.prog r = .ret (a r)) ∧ t.file = W')

/-- No run of the processes ends; some run gets stuck. -/
def Hangs {α : Type} (n : Net) (P : Nat → Prog α) (W : Comm → Store) : Prop :=
  (∃ l t, Sys.Steps n l ⟨P, W⟩ t ∧ t.stuck n) ∧ ∀ l t, Sys.Steps n l ⟨P, W⟩ t → ¬ t.done n

/-- The operations of a program in which all processes take part: a write by one process, a flush by all, a blocking read by all
(`sel r`: the process has an empty selection, or one that meets something in the log, or nothing). -/
inductive COp where
  | write (r did : Nat) (bs : List Blk) (data : List Byte)
  | flush
  | read (sel : Nat → Option Bool)

/-- The operation of process `r`. -/
def opP (o : COpt) (cfg : Cfg) (dsets : DSets) (n : Net) (r : Nat) (op : COp) (p : Proc) :
    Prog Proc :=
  match op with
  | .write q did bs data =>
    if q = r then
      match dsets[did]? with
      | some (some d) =>
        match writeRank cfg d did bs data p.k with
        | .ok k => .ret { p with k := k }
        | _ => .ret p
      | _ => .ret p
    else .ret p
  | .flush => fileFlushP o.sub (n.gc r) p
  | .read sel => readP o (n.gc r) (n.pos r) (n.len (n.gc r)) n.np (sel r) p

/-- All operations of process `r`, one after the other. -/
def opsP (o : COpt) (cfg : Cfg) (dsets : DSets) (n : Net) (r : Nat) : List COp → Proc → Prog Proc
  | [], p => .ret p
  | op :: ops, p => (opP o cfg dsets n r op p).bind (opsP o cfg dsets n r ops)

/-- Address of the next dataset in the file. -/
def nextAddr (addr : Nat → Nat) (st : FState) : Nat := addr (st.lds.length + st.mds.length)

/-- The same operation as one step of the whole file. -/
def collStep (coll : Bool) (addr : Nat → Nat) (op : COp) (st : FState) : Res FState :=
  match op with
  | .write r did bs data => st.write r did bs data
  | .flush => st.fileFlush (nextAddr addr st)
  | .read sel =>
    if ∀ r < st.ranks.length, sel r = none then .ok st
    else do
      let st1 ← (if (coll || decide (st.ranks.length = 1)) && st.anyPending then st.flush (nextAddr addr st)
        else .ok st : Res FState)
      return if st1.metadirty then st1.metaflush (nextAddr addr st1) else st1

def collRun (coll : Bool) (addr : Nat → Nat) : List COp → FState → Res FState
  | [], st => .ok st
  | op :: ops, st => do
    let st1 ← collStep coll addr op st
    collRun coll addr ops st1

/-- In a read, all processes select nothing, or all find something, or all find nothing. -/
def Even (np : Nat) : COp → Prop
  | .read sel => (∀ r < np, sel r = none) ∨ ∃ b, ∀ r < np, sel r = some b
  | .write r _ _ _ => r < np
  | .flush => True

/-- The file `st` as one state is the state of the processes `p` and the file `W` together. -/
structure Joined (n : Net) (st : FState) (p : Nat → Proc) (W : Store) : Prop where
  ranks : st.ranks = (List.range n.np).map (fun r => (p r).k)
  disk : st.disk = W.disk
  lds : st.lds = W.lds
  mds : st.mds = W.mds
  saved : st.saved = W.saved
  dirty : ∀ r < n.np, (p r).dirty = st.metadirty
  nmd : ∀ r < n.np, (p r).nmd = st.mds.length

end Verif.Spec
