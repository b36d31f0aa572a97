import Verif.Model.Dset

/-
What the HDF5 documentation says about the answers to queries about datasets: a dataset is what it was declared to be, with
the extent of the last successful `H5Dset_extent`, in this session and in later ones; property lists of the application stay
as they are; a call that fails changes nothing.
-/

namespace Verif.Spec.Dset

open Verif.Dset (DCpl Space DType Op Out Layout)

/-- A dataset as the application knows it. -/
structure Decl where
  name : Name
  ty : DType
  space : Space
  dcpl : DCpl
deriving DecidableEq, Repr

structure St where
  plists : List DCpl
  decls : List Decl
  handles : List (Option Nat)
deriving DecidableEq, Repr

def St.new (plists : List DCpl) : St := ⟨plists, [], []⟩

/-- A new extent, unless it exceeds the maximal one. -/
def resize : Space → List Nat → Option Space
  | .simple d m, new =>
    if new.length = d.length ∧ (new.zip m).all (fun p => p.2.all (fun k => decide (p.1 ≤ k))) then some (.simple new m)
    else none
  | _, _ => none

/-- The fill value: zeros unless the application has given or ruled out one. -/
def fillOf (d : Decl) : Option (List Byte) :=
  match d.dcpl.fill with
  | .undefined => none
  | .default => some (List.replicate d.ty.size 0)
  | .value bs => some bs

/-- The dataset of a handle. -/
def St.decl (s : St) (h : Nat) : Option Decl := ((s.handles[h]?).join).bind fun i => s.decls[i]?

def St.ask (s : St) (h : Nat) (f : Decl → Out) : St × Out :=
  (s, ((s.decl h).map f).getD .failed)

def St.step (s : St) : Op → St × Out
  | .create n t sp p =>
    match s.plists[p]? with
    | none => (s, .failed)
    | some p =>
      if s.decls.any (fun d => d.name == n) then (s, .failed)
      else ({ s with decls := s.decls ++ [⟨n, t, sp, p⟩], handles := s.handles ++ [some s.decls.length] },
        .handle s.handles.length)
  | .open n =>
    match s.decls.findIdx? (fun d => d.name == n) with
    | none => (s, .failed)
    | some i => ({ s with handles := s.handles ++ [some i] }, .handle s.handles.length)
  | .close h =>
    match (s.handles[h]?).join with
    | none => (s, .failed)
    | some _ => ({ s with handles := s.handles.set h none }, .done)
  | .setExtent h new =>
    match (s.handles[h]?).join with
    | none => (s, .failed)
    | some i =>
      match (s.decls[i]?).bind (fun d => resize d.space new) with
      | none => (s, .failed)
      | some sp => ({ s with decls := s.decls.modify i (fun d => { d with space := sp }) }, .done)
  | .getSpace h => s.ask h fun d => .space d.space
  | .getType h => s.ask h fun d => .type d.ty
  | .getCreate h => s.ask h fun d => .dcpl d.dcpl
  | .getStorage h => s.ask h fun _ => .done
  | .getStatus h => s.ask h fun _ => .done
  | .getFill h => s.ask h fun d => .fill (fillOf d)
  | .getFilters h => s.ask h fun d => .filters d.dcpl.filters
  | .getLayout p => (s, ((s.plists[p]?).map (fun p => Out.layout p.layout)).getD .failed)
  | .reopen => ({ s with handles := s.handles.map (fun _ => none) }, .done)

def St.run : St → List Op → St × List Out
  | s, [] => (s, [])
  | s, op :: ops => (((s.step op).1.run ops).1, (s.step op).2 :: ((s.step op).1.run ops).2)

/-- A property list that asks for nothing that contiguous storage cannot keep. -/
def Plain (p : DCpl) : Prop := p.layout = .contiguous ∧ p.filters = []

/-- A dataspace the connector can keep: not null; with selection encoding (`enc`) not scalar either. -/
def Kept (enc : Bool) : Space → Prop
  | .null => False
  | .scalar => enc = false
  | .simple d m => d ≠ [] ∧ d.length = m.length

/-- The calls for which the connector gives the documented answers.  `plain`: all property lists are plain; `fresh`: the
file is not reopened. -/
def Allowed (enc plain fresh : Bool) (s : St) : Op → Prop
  | .create _ t sp _ => t.varStr = false ∧ Kept enc sp
  | .setExtent h new =>
    ∀ d, s.decl h = some d → ∃ sp, resize d.space new = some sp
  | .getCreate _ => plain = true
  | .getLayout _ => plain = true
  | .getFilters _ => plain = true ∨ fresh = true
  | .getStorage h => s.decl h = none
  | .getStatus h => s.decl h = none
  | .reopen => fresh = false
  | _ => True

def AllowedRun (enc plain fresh : Bool) : St → List Op → Prop
  | _, [] => True
  | s, op :: ops => Allowed enc plain fresh s op ∧ AllowedRun enc plain fresh (s.step op).1 ops

end Verif.Spec.Dset
