/-
What the calls that create, open and close files and datasets acquire and release, with calls to HDF5, MPI and the operating
system that may fail at any point: `H5VL_log_file_create`, `H5VL_log_file_open` (src/H5VL_log_file.cpp L45-319),
`H5VL_log_filei_post_create`, `H5VL_log_filei_post_open`, `H5VL_log_filei_close` (src/H5VL_log_filei.cpp L109-291, L710-842),
`H5VL_log_dataset_create`, `H5VL_log_dataset_open` (src/H5VL_log_dataset.cpp L54-282), `H5VL_log_dataseti_open`
(src/H5VL_log_dataseti.cpp L686-764).

Simplified: a function is the sequence of what it acquires, releases and reads, in the order of the code; everything else
(values, contents of the file) is left out.  Calls that the code does not check and whose result is not a resource are left
out.  Memory that `new` allocates is taken to be available.
-/

namespace Verif.Owner

/-- What has to be released: of a call or of a file object, or of the dataset with the given number. -/
inductive Tok where
  /-- the block `H5Pget_vol_info` returns, the reference to the under VOL and the copy of its info that the block holds
  (src/H5VL_log_info.cpp L41-56) -/
  | info | infoRef | infoUnder
  /-- the communicator and info that `H5Pget_fapl_mpio` duplicates -/
  | inComm | inInfo
  /-- the file object with its reference to the under VOL (src/H5VL_log_filei.cpp L1102-1108) -/
  | fp
  | comm | minfo | dxpl | ufapl | idx
  /-- `ufaplid` with subfiling, and `ufcplid`, in `H5VL_log_file_create` -/
  | sfapl | ufcpl
  /-- the file of the under VOL -/
  | uo
  /-- the entry in `files` -/
  | reg
  | gcomm | sfp | lgp | fd | fh
  /-- name with the additional `_` -/
  | iname
  | req
  /-- the dataset object (with its references to the file and to the under VOL), the dataset of the under VOL -/
  | dp (i : Nat) | duo (i : Nat)
  | zspace | dcpl
  /-- `H5VL_log_dset_info_t`, its `dtype`, its `fill` -/
  | dip (i : Nat) | dtype (i : Nat) | fill (i : Nat)
deriving Repr

/-- A number for each, to compare them. -/
def Tok.code : Tok → Nat
  | .info => 0
  | .infoRef => 1
  | .infoUnder => 2
  | .inComm => 3
  | .inInfo => 4
  | .fp => 5
  | .comm => 6
  | .minfo => 7
  | .dxpl => 8
  | .ufapl => 9
  | .idx => 10
  | .sfapl => 11
  | .ufcpl => 12
  | .uo => 13
  | .reg => 14
  | .gcomm => 15
  | .sfp => 16
  | .lgp => 17
  | .fd => 18
  | .fh => 19
  | .iname => 20
  | .req => 21
  | .dp i => 32 * i + 22
  | .duo i => 32 * i + 23
  | .zspace => 24
  | .dcpl => 25
  | .dip i => 32 * i + 26
  | .dtype i => 32 * i + 27
  | .fill i => 32 * i + 28

def Tok.decode (n : Nat) : Tok :=
  match n % 32 with
  | 0 => .info
  | 1 => .infoRef
  | 2 => .infoUnder
  | 3 => .inComm
  | 4 => .inInfo
  | 5 => .fp
  | 6 => .comm
  | 7 => .minfo
  | 8 => .dxpl
  | 9 => .ufapl
  | 10 => .idx
  | 11 => .sfapl
  | 12 => .ufcpl
  | 13 => .uo
  | 14 => .reg
  | 15 => .gcomm
  | 16 => .sfp
  | 17 => .lgp
  | 18 => .fd
  | 19 => .fh
  | 20 => .iname
  | 21 => .req
  | 22 => .dp (n / 32)
  | 23 => .duo (n / 32)
  | 24 => .zspace
  | 25 => .dcpl
  | 26 => .dip (n / 32)
  | 27 => .dtype (n / 32)
  | _ => .fill (n / 32)

theorem Tok.decode_code (t : Tok) : Tok.decode t.code = t := by
  cases t <;> simp [Tok.code, Tok.decode, Nat.mul_add_div]

theorem Tok.code_inj {a b : Tok} (h : a.code = b.code) : a = b := by
  rw [← Tok.decode_code a, h, Tok.decode_code]

instance : DecidableEq Tok := fun a b => decidable_of_iff (a.code = b.code) ⟨Tok.code_inj, fun h => h ▸ rfl⟩

/-- Fields of the file object that the constructor does not set and that are read later. -/
inductive Var where
  | sfp | lgp | fh | gcomm | idx | ino
deriving DecidableEq, Repr

/-- What is held, and which fields have been set. -/
structure St where
  held : Tok → Nat
  isSet : Var → Bool

/-- Nothing is held and nothing is set. -/
def St.init : St := ⟨fun _ => 0, fun _ => false⟩

def St.add (s : St) (t : Tok) : St := { s with held := fun u => if u = t then s.held u + 1 else s.held u }

def St.drop (s : St) (t : Tok) : St := { s with held := fun u => if u = t then s.held u - 1 else s.held u }

def St.mark (s : St) (v : Var) : St := { s with isSet := fun u => if u = v then true else s.isSet u }

/-- Steps of the code. -/
inductive Cmd where
  | skip
  | seq (a b : Cmd)
  /-- a call that acquires, whose failure is noticed and raises an exception -/
  | get (t : Tok)
  /-- a call that acquires, whose failure is not noticed -/
  | getU (t : Tok)
  /-- an acquisition that does not fail (memory, an entry in a map) -/
  | own (t : Tok)
  /-- a call that may fail with an exception -/
  | call
  /-- an exception -/
  | fail
  /-- release what must be held -/
  | put (t : Tok)
  /-- release, if held (the code compares with `NULL`, or the called function does nothing with an invalid id) -/
  | putIf (t : Tok)
  /-- an exception if it is not held (a call is given `NULL` or an invalid id) -/
  | demand (t : Tok)
  /-- a field is set -/
  | mark (v : Var)
  /-- a field is read -/
  | use (v : Var)
  /-- `try { body } catch { handler }; fin`; the exception is reported to the caller as a failure -/
  | scope (body handler fin : Cmd)
deriving Repr

/-- How a call ends: normally, with a failure (exception, `NULL` or negative result), with undefined behaviour. -/
inductive Out where
  | done (s : St)
  | thrown (s : St)
  | ub

/-- The possible runs of a command: each call may succeed or fail.  `can` says what can be acquired at all. -/
inductive Runs (can : Tok → Bool) : Cmd → St → Out → Prop where
  | skip {s : St} : Runs can .skip s (.done s)
  | seqDone {s s₁ : St} {a b : Cmd} {o : Out} : Runs can a s (.done s₁) → Runs can b s₁ o → Runs can (.seq a b) s o
  | seqThrown {s s₁ : St} {a b : Cmd} : Runs can a s (.thrown s₁) → Runs can (.seq a b) s (.thrown s₁)
  | seqUb {s : St} {a b : Cmd} : Runs can a s .ub → Runs can (.seq a b) s .ub
  | getOk {s : St} {t : Tok} : can t = true → Runs can (.get t) s (.done (s.add t))
  | getFail {s : St} {t : Tok} : Runs can (.get t) s (.thrown s)
  | getUOk {s : St} {t : Tok} : can t = true → Runs can (.getU t) s (.done (s.add t))
  | getUFail {s : St} {t : Tok} : Runs can (.getU t) s (.done s)
  | own {s : St} {t : Tok} : Runs can (.own t) s (.done (s.add t))
  | callOk {s : St} : Runs can .call s (.done s)
  | callFail {s : St} : Runs can .call s (.thrown s)
  | fail {s : St} : Runs can .fail s (.thrown s)
  | putOk {s : St} {t : Tok} : 0 < s.held t → Runs can (.put t) s (.done (s.drop t))
  | putUb {s : St} {t : Tok} : s.held t = 0 → Runs can (.put t) s .ub
  | putIf {s : St} {t : Tok} : Runs can (.putIf t) s (.done (s.drop t))
  | demandOk {s : St} {t : Tok} : 0 < s.held t → Runs can (.demand t) s (.done s)
  | demandFail {s : St} {t : Tok} : s.held t = 0 → Runs can (.demand t) s (.thrown s)
  | mark {s : St} {v : Var} : Runs can (.mark v) s (.done (s.mark v))
  | useOk {s : St} {v : Var} : s.isSet v = true → Runs can (.use v) s (.done s)
  | useUb {s : St} {v : Var} : s.isSet v = false → Runs can (.use v) s .ub
  | scopeDone {s s₁ : St} {body fin handler : Cmd} {o : Out} : Runs can body s (.done s₁) → Runs can fin s₁ o → Runs can (.scope body handler fin) s o
  | scopeThrown {s s₁ s₂ : St} {body handler fin : Cmd} : Runs can body s (.thrown s₁) → Runs can (.seq handler fin) s₁ (.done s₂) →
      Runs can (.scope body handler fin) s (.thrown s₂)
  | scopeThrown' {s s₁ s₂ : St} {body handler fin : Cmd} : Runs can body s (.thrown s₁) → Runs can (.seq handler fin) s₁ (.thrown s₂) →
      Runs can (.scope body handler fin) s (.thrown s₂)
  | scopeThrownUb {s s₁ : St} {body handler fin : Cmd} : Runs can body s (.thrown s₁) → Runs can (.seq handler fin) s₁ .ub →
      Runs can (.scope body handler fin) s .ub
  | scopeUb {s : St} {body handler fin : Cmd} : Runs can body s .ub → Runs can (.scope body handler fin) s .ub

/-- Several steps. -/
def many : List Cmd → Cmd
  | [] => .skip
  | c :: r => .seq c (many r)

def onlyIf (b : Bool) (c : Cmd) : Cmd := if b then c else .skip

/-! ### Files -/

/-- What the calls depend on: the property list names an under VOL; with info for it; the driver
is MPIO and `H5Pget_fapl_mpio` succeeds; with an MPI info; the file has
subfiles; the data are aligned; the process is not rank 0; the file is a log file; it is opened with `H5F_ACC_RDONLY`; the
registration finds the inode. -/
structure Args where
  info : Bool
  underInfo : Bool
  mpio : Bool
  minfo : Bool
  sub : Bool
  align : Bool
  rank : Bool
  isLog : Bool
  rdonly : Bool
  stat : Bool
deriving DecidableEq, Repr

/-- The beginning of both calls (src/H5VL_log_file.cpp L79-110, L226-253), the search for the file having found nothing:
`H5Pget_vol_info`, or the native VOL, then the driver and its communicator. -/
def start (a : Args) : Cmd :=
  many [
    if a.info then many [.own .info, .own .infoRef, onlyIf a.underInfo (.own .infoUnder)] else many [.call, .call],
    .call,
    onlyIf a.mpio (many [.own .inComm, onlyIf a.minfo (.own .inInfo)])]

/-- The fields of the file object (L112-140, L256-281). -/
def initFile (a : Args) : Cmd :=
  many [.own .fp, .get .comm, onlyIf (a.mpio && a.minfo) (.get .minfo), .call, .call, .getU .dxpl, .call]

/-- The property list for the under VOL (L151-157, L285-291): the list that `H5VL_log_filei_get_under_plist` returns is not
checked, but `H5Pset_vol` fails with an invalid one. -/
def underPlist : Cmd := many [.get .ufapl, .call, .call, .call]

/-- The end of both calls (L191-195, L312-317): `free (info)` releases the block only. -/
def finish : Cmd := many [.putIf .inComm, .putIf .inInfo, .putIf .info]

/-- `H5VL_log_filei_register` (src/H5VL_log_filei.cpp L63-79). -/
def register (a : Args) : Cmd := many [.mark .ino, onlyIf a.stat (.own .reg)]

/-- `H5VL_log_file_open` (src/H5VL_log_file.cpp L207-319). -/
def open_ (a : Args) : Cmd :=
  .scope
    (many [start a, initFile a, .mark .sfp, .mark .lgp, underPlist, .get .uo, .call, register a])
    (.putIf .fp)
    finish

/-- `H5VL_log_file_create` (L45-197).  The closure `finally` (L58-61) closes `ufaplid` only if `fp` is not `NULL`. -/
def create (a : Args) : Cmd :=
  .scope
    (many [start a, initFile a, .call, .call, .own .idx, .mark .idx, underPlist, .get .ufcpl,
      onlyIf a.sub (many [.get .sfapl, .call, onlyIf a.rank .call]), .get .uo, .putIf .sfapl])
    (.putIf .fp)
    (many [finish, .putIf .ufcpl])

/-- `H5VL_log_filei_calc_node_rank` (src/H5VL_log_filei.cpp L943-1019); after `MPI_Comm_split` it checks `err`, not `mpierr`
(L970). -/
def nodeRank : Cmd := many [.getU .gcomm, .mark .gcomm, .call, .call, .call, .call]

/-- `H5VL_log_filei_post_open` (L109-199), after the call of the under VOL (src/H5VL_log_file.cpp L495-497).  `MPI_File_open`
is taken to set the handle to `MPI_FILE_NULL` when it fails. -/
def postOpen (a : Args) : Cmd :=
  many [.call, .call,
    onlyIf a.isLog (many [.call, .mark .gcomm, .own .idx, .mark .idx,
      onlyIf a.sub (many [nodeRank, .call, .call, .get .sfp, .call]),
      .get .lgp, .mark .fh, .get .fh, .call])]

/-- `H5VL_log_filei_post_create` (L201-291).  With aligned data the striping is asked of `fp->fh`, which is not set (L217). -/
def postCreate (a : Args) : Cmd :=
  many [.call,
    onlyIf a.align (many [.use .fh, .call, .call, .call]),
    (if a.align || a.sub then nodeRank else .mark .gcomm),
    (if a.sub then many [.call, .call, .mark .sfp, .get .sfp, .call] else .mark .sfp),
    .mark .lgp, .get .lgp, onlyIf (a.align && !a.sub) (.get .fd), .mark .fh, .get .fh, .call, register a]

/-- The infos of the datasets (L803-808): `fill` and the block are freed; the datatype is not closed. -/
def closeDsets : Nat → Cmd
  | 0 => .skip
  | n + 1 => .seq (closeDsets n) (many [.putIf (.fill n), .put (.dip n)])

/-- `H5VL_log_filei_close` (L710-842) with the infos of `n` datasets. -/
def closeFile (a : Args) (n : Nat) : Cmd :=
  if a.isLog then
    many [
      onlyIf (!a.rdonly) (many [.call, .call, .use .sfp, onlyIf a.sub .call, .call]),
      .use .lgp, .demand .lgp, .call, .put .lgp,
      .use .fh, .demand .fh, .call, .put .fh,
      onlyIf (a.align && !a.sub) (.putIf .fd),
      closeDsets n,
      .use .idx, .put .idx,
      .call, .put .uo,
      .use .sfp, onlyIf a.sub (many [.call, .put .sfp]),
      .use .ino, .putIf .reg,
      .use .gcomm, .putIf .gcomm, .put .comm, .putIf .minfo, .putIf .dxpl, .put .ufapl, .put .fp]
  else
    many [.put .uo, .use .ino, .putIf .reg, .put .comm, .putIf .minfo, .putIf .dxpl, .put .ufapl, .put .fp]

/-! ### Datasets -/

/-- `H5VL_logi_name_remap` (src/H5VL_logi_util.hpp L110-129): `under` if the name begins with `_`. -/
def remap (under : Bool) : Cmd := onlyIf under (.own .iname)

/-- `H5VL_log_dataseti_open` (src/H5VL_log_dataseti.cpp L686-764): `i` is the id the attribute says; `known` if its info exists
already; `fill` if the fill value is defined.  `dp` and `dip` are `unique_ptr`s: they are deleted on an exception. -/
def dsetiOpen (i : Nat) (known fill : Bool) : Cmd :=
  .scope
    (many [.call, .own (.dp i), .call,
      onlyIf (!known) (many [.own (.dip i), .get (.dtype i), .call, .call, .call, .get .dcpl,
        .call, onlyIf fill (many [.get (.fill i), .call])])])
    (many [onlyIf (!known) (.putIf (.dip i)), .putIf (.dp i)])
    (.putIf .dcpl)

/-- `H5VL_log_dataset_open` (src/H5VL_log_dataset.cpp L233-282) in a log file: `iname` is freed before
`H5VL_log_dataseti_open` is called (L270-271), and again after an exception (L276). -/
def dsetOpen (i : Nat) (under known fill : Bool) : Cmd :=
  .scope
    (many [remap under, .get (.duo i), onlyIf under (.put .iname), dsetiOpen i known fill])
    (onlyIf under (.put .iname))
    .skip

/-- `H5VL_log_dataset_close` (L667-706), the file staying open. -/
def dsetClose (i : Nat) : Cmd := many [.call, .put (.duo i), .put (.dp i)]

/-- `H5VL_log_dataset_create` (L54-223) in a log file: `i` is the number of the new dataset; `asked` if a request is wanted. -/
def dsetCreate (i : Nat) (under fill asked : Bool) : Cmd :=
  .scope
    (many [remap under, .call, onlyIf asked (.own .req), .own (.dp i), .call, .getU .zspace, .get (.duo i), .putIf .zspace,
      .own (.dip i), .get (.dtype i), onlyIf fill (many [.get (.fill i), .call]), .call, .call, .call, .call, .call])
    (many [.putIf (.dip i), .putIf (.dp i)])
    (onlyIf under (.putIf .iname))

/-! ### The last handle -/

/-- A file object: its reference count and what is held. -/
structure FileRef where
  refcnt : Int
  st : St

/-- How the release of a handle ends: it is released and the file stays open; the file is closed; the call reports a failure;
the process is aborted. -/
inductive Closed where
  | kept (f : FileRef)
  | closed (s : St)
  | failed (f : FileRef)
  | aborted
  | ub

/-- `H5VL_log_file_close` (src/H5VL_log_file.cpp L528-539) and `H5VL_log_filei_dec_ref` (src/H5VL_log_filei.cpp L1081-1084),
with the infos of `n` datasets. -/
inductive FileClose (a : Args) (n : Nat) : FileRef → Closed → Prop where
  | kept {f : FileRef} : f.refcnt - 1 ≠ 0 → FileClose a n f (.kept ⟨f.refcnt - 1, f.st⟩)
  | closed {f : FileRef} {s : St} : f.refcnt - 1 = 0 → Runs (fun _ => true) (closeFile a n) f.st (.done s) → FileClose a n f (.closed s)
  | failed {f : FileRef} {s : St} : f.refcnt - 1 = 0 → Runs (fun _ => true) (closeFile a n) f.st (.thrown s) → FileClose a n f (.failed ⟨0, s⟩)
  | ub {f : FileRef} : f.refcnt - 1 = 0 → Runs (fun _ => true) (closeFile a n) f.st .ub → FileClose a n f .ub

/-- The destructor of an object (src/H5VL_log_obji.cpp L82-95), which calls `H5VL_log_filei_dec_ref`: an exception leaves a
destructor, which `std::terminate`s the process. -/
inductive ObjDelete (a : Args) (n : Nat) : FileRef → Closed → Prop where
  | kept {f : FileRef} : f.refcnt - 1 ≠ 0 → ObjDelete a n f (.kept ⟨f.refcnt - 1, f.st⟩)
  | closed {f : FileRef} {s : St} : f.refcnt - 1 = 0 → Runs (fun _ => true) (closeFile a n) f.st (.done s) → ObjDelete a n f (.closed s)
  | aborted {f : FileRef} {s : St} : f.refcnt - 1 = 0 → Runs (fun _ => true) (closeFile a n) f.st (.thrown s) → ObjDelete a n f .aborted
  | ub {f : FileRef} : f.refcnt - 1 = 0 → Runs (fun _ => true) (closeFile a n) f.st .ub → ObjDelete a n f .ub

end Verif.Owner
