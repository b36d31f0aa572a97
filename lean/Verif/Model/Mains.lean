import Verif.Model.Dump
import Verif.Model.Names

/-
The main functions of the tools: `main` and the first part of `h5lreplay_core` (utils/h5lreplay/h5lreplay.cpp L36-91, L137-195), `main` of
h5ldump (utils/h5ldump/h5ldump.cpp L100-188) with `get_file_signature` (L34-87).  What they do with the files between opening and closing
them (`h5lreplay_core` from L198 on, `h5ldump_visit`, `h5ldump_file`) is a parameter here; see Model/Replay, Model/ReplayCopy, Model/Dump.
-/

namespace Verif.Mains

/-- What the tools see of the contents `κ` of a file.  `τ`: text printed by h5ldump. -/
structure Lib (κ τ : Type) where
  /-- the first bytes -/
  first : κ → List Byte
  /-- `H5Fopen` for reading succeeds -/
  opens : κ → Bool
  /-- `H5Aexists` for the attribute of the connector and that of NetCDF-4 -/
  islog : κ → Bool
  isnc : κ → Bool
  /-- an HDF5 file as `H5Fcreate` makes it -/
  fresh : κ
  /-- `h5lreplay_core` from L198 on for an input file that is open: whether it ends without exception, and the output file -/
  copy : κ → Bool × κ
  /-- `H5Fcreate` refuses to truncate a file that the same process has open -/
  refuses : Bool
  /-- what comes out if it does not and the input is truncated while it is open -/
  clobber : κ → Bool × κ
  /-- `h5ldump_visit` and `h5ldump_file`, with data or without -/
  dump : Bool → κ → Bool × τ

/-- Files by path. -/
abbrev Files (κ : Type) := Name → Option κ

def Files.put {κ : Type} (fs : Files κ) (p : Name) (c : κ) : Files κ := fun q => if q = p then some c else fs q

/-! ### h5lreplay -/

/-- Options as `getopt (argc, argv, "hi:o:")` returns them (L49-65); `other`: `-h` and what it does not know. -/
inductive ROpt where
  | i (p : Name)
  | o (p : Name)
  | other
deriving DecidableEq, Repr

/-- The loop over the options (L49-65): paths, or `none` after printing the usage. -/
def replayOpts : Name × Name → List ROpt → Option (Name × Name)
  | s, [] => some s
  | s, .i p :: r => replayOpts (p, s.2) r
  | s, .o p :: r => replayOpts (s.1, p) r
  | _, .other :: _ => none

/-- `h5lreplay_core` (L178-195 in detail): whether it ends without exception, and the files.  The identifier checked after `H5Fopen` of the
input is that of the property list (L187-188).  `may`: paths where files can be created.  What happens if both paths are the same depends on
the file driver and is a parameter. -/
def replayCore {κ τ : Type} (L : Lib κ τ) (may : Name → Bool) (fs : Files κ) (inp out : Name) : Bool × Files κ :=
  if may out = false ∨ ((fs inp).any L.opens = true ∧ inp = out ∧ L.refuses = true) then (false, fs)
  else
    let fs1 := fs.put out L.fresh
    match (fs inp).filter L.opens with
    | some c =>
      let r := if inp = out then L.clobber c else L.copy c
      (r.1, fs1.put out r.2)
    | none => (false, fs1)

/-- The first eight bytes are compared with the signature (L68-81): `err` of all processes after the broadcast (L82). -/
def replayCheck {κ τ : Type} (L : Lib κ τ) (fs : Files κ) (inp : Name) : Bool :=
  match fs inp with
  | some c => decide ((L.first c ++ List.replicate 8 0).take 8 = hdf5Sig)
  | none => false

/-- `main` of h5lreplay (L36-91): exit status of every process and the files. -/
def replayMain {κ τ : Type} (L : Lib κ τ) (may : Name → Bool) (fs : Files κ) (opts : List ROpt) : Int × Files κ :=
  match replayOpts ([], []) opts with
  | none => (0, fs)
  | some (inp, out) =>
    let r := replayCore L may fs inp out
    (if r.1 && replayCheck L fs inp then 0 else -1, r.2)

/-! ### h5ldump -/

/-- Options of h5ldump (L123-141): `-H`, `-k`, `-v`; `other`: `-h` and what `getopt` does not know. -/
inductive DOpt where
  | header
  | kind
  | verbose
  | other
deriving DecidableEq, Repr

/-- What h5ldump prints. -/
inductive Out (τ : Type) where
  | warning
  | usage
  | cannotOpen
  | kind (k : Kind)
  | notLog (k : Kind)
  | body (t : τ)
deriving DecidableEq, Repr

/-- `get_file_signature` (L34-87): the kind, `none` after an exception (L57). -/
def signature {κ τ : Type} (L : Lib κ τ) : Option κ → Option Kind
  | none => some .unknown
  | some c =>
    if (L.first c ++ List.replicate 8 0).take 8 = hdf5Sig ∧ L.opens c = false then none
    else some (fileKind (L.first c) (L.islog c) (L.isnc c))

/-- `h5ldump_visit` and `h5ldump_file` (L174-177). -/
def dumpBody {κ τ : Type} (L : Lib κ τ) (withData : Bool) : Option κ → Bool × List (Out τ)
  | none => (false, [])
  | some c => if L.opens c then ((L.dump withData c).1, [.body (L.dump withData c).2]) else (false, [])

/-- After the options (L143-185): text and whether `err` is 0.  That the file is not of the connector is said, but the file is dumped all the
same (L157-177). -/
def dumpRun {κ τ : Type} (L : Lib κ τ) (f : Option κ) (withData showKind : Bool) : Bool × List (Out τ) :=
  let missing : List (Out τ) := if f.isNone then [.cannotOpen] else []
  match signature L f with
  | none => (false, missing)
  | some k =>
    if showKind then (true, missing ++ [.kind k])
    else
      let r := dumpBody L withData f
      (decide (k = .logVol) && r.1, missing ++ (if k = .logVol then [] else [.notLog k]) ++ r.2)

/-- `main` of h5ldump (L100-188), text printed by all processes and the exit status of each. -/
def dumpMain {κ τ : Type} (L : Lib κ τ) (fs : Files κ) (np : Nat) (opts : List DOpt) (file : Option Name) : Int × List (Out τ) :=
  if 1 < np then (0, [.warning])
  else if DOpt.other ∈ opts then (-1, [.usage])
  else match file with
    | none => (-1, [.usage])
    | some p =>
      let r := dumpRun L (fs p) (decide (DOpt.header ∉ opts)) (decide (DOpt.kind ∈ opts))
      (if r.1 then 0 else -1, r.2)

end Verif.Mains
