/-
Identifiers of connectors and connector information: src/H5VL_log.cpp L30-36 (`H5VL_log_register`), L48-70 (`H5Pset_vol_log`),
src/H5VL_log_info.cpp L41-56 (copy), L98-121 (free), L175-216 (`H5VL_log_str_to_info`), src/H5VL_log_file.cpp L82, L186, L230, L317
(information used by H5Fcreate and H5Fopen), and what the library does for H5Pset_vol,
H5Pget_vol_id, H5Pget_vol_info, H5Pcopy, H5Pclose, H5VLclose and when a file is opened and closed (HDF5 1.13/1.14: the property keeps
one reference to the connector and a copy of its information, an open file keeps one reference).

Identifiers are numbers that are never given out twice.  Identifier `0` is the native connector.  The information of other connectors
than the log-based one holds no references to identifiers.  Not modelled: failing allocations, a failing H5VLregister_connector.
-/

namespace Verif.Conn

/-- Connector information: NULL, that of another connector, or `H5VL_log_info_t` with `uvlid` and `under_vol_info`. -/
inductive CInfo where
  | null
  | own (n : Nat)
  | log (c : Nat) (i : CInfo)
deriving DecidableEq, Repr

/-- References to every identifier (`0`: not valid) and allocated blocks of connector information. -/
structure Led where
  refs : Nat → Nat
  blocks : Nat

/-- `H5Iinc_ref`; fails without effect for an invalid identifier. -/
def Led.inc (l : Led) (c : Nat) : Led :=
  if l.refs c = 0 then l else { l with refs := fun k => if k = c then l.refs c + 1 else l.refs k }

/-- `H5Idec_ref`. -/
def Led.dec (l : Led) (c : Nat) : Led :=
  if l.refs c = 0 then l else { l with refs := fun k => if k = c then l.refs c - 1 else l.refs k }

/-- `H5VL_log_info_copy` (L41-56) through `H5VLcopy_connector_info`, which fails if the identifier is not valid; the result is
ignored. -/
def copyInfo : CInfo → Led → CInfo × Led
  | .null, l => (.null, l)
  | .own n, l => (.own n, { l with blocks := l.blocks + 1 })
  | .log c i, l =>
    let l := ({ l with blocks := l.blocks + 1 } : Led).inc c
    if i = .null ∨ l.refs c = 0 then (.log c .null, l)
    else
      let r := copyInfo i l
      (.log c r.1, r.2)

/-- `H5VL_log_info_free` (L98-121). -/
def freeInfo : CInfo → Led → Led
  | .null, l => l
  | .own _, l => { l with blocks := l.blocks - 1 }
  | .log c i, l =>
    let l := if l.refs c = 0 then l else freeInfo i l
    let l := l.dec c
    { l with blocks := l.blocks - 1 }

/-- Identifiers named in the information. -/
def CInfo.ids : CInfo → List Nat
  | .log c i => c :: i.ids
  | _ => []

/-- `H5VL_log_str_to_info` (L175-216) for a text that describes the information: the connector is looked up, which gives a reference
(L188-189), then the information of that connector is made from the text (L205), and another reference is taken (L210). -/
def parseInfo : CInfo → Led → Led
  | .null, l => l
  | .own _, l => { l with blocks := l.blocks + 1 }
  | .log c i, l =>
    let l := (parseInfo i (l.inc c)).inc c
    { l with blocks := l.blocks + 1 }

/-- `H5Pget_vol_info` and later `free (info)` in `H5VL_log_file_create` and `H5VL_log_file_open`: only the block itself is released. -/
def openInfo (i : CInfo) (l : Led) : Led :=
  match i with
  | .log _ _ =>
    let l := (copyInfo i l).2
    { l with blocks := l.blocks - 1 }
  | _ => l

/-- The connector of a property list: identifier and information. -/
abbrev CProp := Nat × CInfo

/-- Copy of the property (`H5VL_conn_copy`). -/
def takeProp (p : CProp) (l : Led) : CProp × Led :=
  let r := copyInfo p.2 (l.inc p.1)
  ((p.1, r.1), r.2)

/-- End of the property (`H5VL_conn_free`). -/
def dropProp (p : CProp) (l : Led) : Led := if l.refs p.1 = 0 then l else (freeInfo p.2 l).dec p.1

/-- References of an open file: that of the library to the connector, and `uvlid` of `H5VL_log_file_t`
(src/H5VL_log_filei.cpp L1100-1120).  The native connector, which is used without information, is never unregistered. -/
def fileIds (p : CProp) : List Nat :=
  match p.2 with
  | .log c _ => [p.1, c]
  | _ => [p.1]

/-- State: `H5VL_LOG_g` (`none`: negative), the identifier under which the library has loaded the connector by itself, the next new
identifier, property lists, information given to the application and open files. -/
structure St where
  led : Led
  g : Option Nat
  plug : Option Nat
  next : Nat
  lists : List (Option CProp)
  infos : List (Option CInfo)
  files : List (Option (List Nat))

inductive Out where
  | done | failed
  | id (c : Nat)
deriving DecidableEq, Repr

/-- `H5VL_log_register` (L30-36).  `H5VLregister_connector` gives another reference to a class that is registered already. -/
def St.register (s : St) : St × Nat :=
  match s.g with
  | some c => (s, c)
  | none =>
    match s.plug.filter (fun c => s.led.refs c ≠ 0) with
    | some c => ({ s with g := some c, led := s.led.inc c }, c)
    | none => ({ s with g := some s.next, next := s.next + 1,
                        led := { s.led with refs := fun k => if k = s.next then 1 else s.led.refs k } }, s.next)

def St.list (s : St) (h : Nat) : Option CProp := (s.lists[h]?).join

/-- H5Pset_vol: the new value is copied before the old one is released. -/
def St.setVol (s : St) (h c : Nat) (i : CInfo) : St × Out :=
  match s.list h with
  | none => (s, .failed)
  | some old =>
    if s.led.refs c = 0 then (s, .failed)
    else
      let r := takeProp (c, i) s.led
      ({ s with lists := s.lists.set h (some r.1), led := dropProp old r.2 }, .done)

/-- `H5Pset_vol_log` (L48-70). -/
def St.setVolLog (s : St) (h : Nat) : St × Out :=
  let r := s.register
  match r.1.list h with
  | none => (r.1, .failed)
  | some old =>
    let l := r.1.led.inc old.1
    let x := copyInfo old.2 l
    ({ r.1 with led := x.2 } : St).setVol h r.2 (.log old.1 x.1)

inductive Op where
  | register
  | create
  | setVol (h c : Nat) (i : CInfo)
  | setVolLog (h : Nat)
  | copyList (h : Nat)
  | closeList (h : Nat)
  | getId (h : Nat)
  | getInfo (h : Nat)
  | freeInfo (k : Nat)
  | closeId (c : Nat)
  | parse (c : Nat) (i : CInfo)
  | openFile (h : Nat)
  | closeFile (f : Nat)
deriving DecidableEq, Repr

def St.step (s : St) : Op → St × Out
  | .register => (s.register.1, .id s.register.2)
  | .create => ({ s with lists := s.lists ++ [some (0, .null)], led := s.led.inc 0 }, .done)
  | .setVol h c i => s.setVol h c i
  | .setVolLog h => s.setVolLog h
  | .copyList h => match s.list h with
    | none => (s, .failed)
    | some p => ({ s with lists := s.lists ++ [some (takeProp p s.led).1], led := (takeProp p s.led).2 }, .done)
  | .closeList h => match s.list h with
    | none => (s, .failed)
    | some p => ({ s with lists := s.lists.set h none, led := dropProp p s.led }, .done)
  | .getId h => match s.list h with
    | none => (s, .failed)
    | some p => if s.led.refs p.1 = 0 then (s, .failed) else ({ s with led := s.led.inc p.1 }, .id p.1)
  | .getInfo h => match s.list h with
    | none => (s, .failed)
    | some p => ({ s with infos := s.infos ++ [some (copyInfo p.2 s.led).1], led := (copyInfo p.2 s.led).2 }, .done)
  | .freeInfo k => match (s.infos[k]?).join with
    | none => (s, .failed)
    | some i => ({ s with infos := s.infos.set k none, led := freeInfo i s.led }, .done)
  | .closeId c => if s.led.refs c = 0 then (s, .failed) else ({ s with led := s.led.dec c }, .done)
  | .parse c i => if (CInfo.log c i).ids.any (fun k => s.led.refs k = 0) then (s, .failed)
    else ({ s with infos := s.infos ++ [some (.log c i)], led := parseInfo (.log c i) s.led }, .done)
  | .openFile h => match s.list h with
    | none => (s, .failed)
    | some p => if (fileIds p).any (fun c => s.led.refs c = 0) then (s, .failed)
      else ({ s with files := s.files ++ [some (fileIds p)], led := (fileIds p).foldl Led.inc (openInfo p.2 s.led) }, .done)
  | .closeFile f => match (s.files[f]?).join with
    | none => (s, .failed)
    | some ids => ({ s with files := s.files.set f none, led := ids.foldl Led.dec s.led }, .done)

def St.run : St → List Op → St × List Out
  | s, [] => (s, [])
  | s, op :: ops =>
    let r := s.step op
    let t := r.1.run ops
    (t.1, r.2 :: t.2)

end Verif.Conn
