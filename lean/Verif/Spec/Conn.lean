import Verif.Model.Conn

/-!
References to connectors (C87): what a program that plays by the rules holds, what has been given to the application, and what is lost.
-/

namespace Verif.Conn

/-- References to identifier `k` that belong to connector information. -/
def CInfo.holds : CInfo → Nat → Nat
  | .log c i, k => (if k = c then 1 else 0) + i.holds k
  | _, _ => 0

/-- Blocks of memory of connector information. -/
def CInfo.size : CInfo → Nat
  | .null => 0
  | .own _ => 1
  | .log _ i => 1 + i.size

/-- References that belong to a property list. -/
def listHolds (o : Option CProp) (k : Nat) : Nat := o.elim 0 (fun p => (if k = p.1 then 1 else 0) + p.2.holds k)

def infoHolds (o : Option CInfo) (k : Nat) : Nat := o.elim 0 (·.holds k)

/-- References that belong to an open file. -/
def fileHolds (o : Option (List Nat)) (k : Nat) : Nat := o.elim 0 (·.count k)

/-- References to `k` of all property lists, connector information of the application and open files. -/
def St.inUse (s : St) (k : Nat) : Nat :=
  (s.lists.map (listHolds · k)).sum + (s.infos.map (infoHolds · k)).sum + (s.files.map (fileHolds · k)).sum

/-- Blocks of property lists and of connector information of the application. -/
def St.usedBlocks (s : St) : Nat :=
  (s.lists.map (fun o => o.elim 0 (fun p => p.2.size))).sum + (s.infos.map (fun o => o.elim 0 CInfo.size)).sum

/-- References that the application has got and not given back; references and blocks that nobody knows any more. -/
structure Tally where
  app : Nat → Nat
  lost : Nat → Nat
  lostBlocks : Nat

def Tally.zero : Tally := ⟨fun _ => 0, fun _ => 0, 0⟩

def Tally.give (t : Tally) (c : Nat) : Tally := { t with app := fun k => t.app k + if k = c then 1 else 0 }
def Tally.back (t : Tally) (c : Nat) : Tally := { t with app := fun k => t.app k - if k = c then 1 else 0 }
def Tally.lose (t : Tally) (f : Nat → Nat) (b : Nat) : Tally := { t with lost := fun k => t.lost k + f k, lostBlocks := t.lostBlocks + b }

/-- The effect of a call with answer `out` in state `s`.  The first H5VL_log_register gives a reference, later ones do not. -/
def tallyStep (s : St) (t : Tally) : Op → Out → Tally
  | .register, .id c => if s.g = none then t.give c else t
  | .getId _, .id c => t.give c
  | .closeId c, .done => t.back c
  | .setVolLog h, _ =>
    let t := if s.g = none then t.lose (fun k => if k = s.register.2 then 1 else 0) 0 else t
    match s.list h with
    | some p => t.lose (listHolds (some p)) p.2.size
    | none => t
  | .parse c i, .done => t.lose (CInfo.log c i).holds 0
  | .openFile h, .done =>
    match s.list h with
    | some p => match p.2 with
      | .log _ i => t.lose p.2.holds i.size
      | _ => t
    | none => t
  | _, _ => t

def tally : St → List Op → Tally → Tally
  | _, [], t => t
  | s, op :: ops, t => tally (s.step op).1 ops (tallyStep s t op (s.step op).2)

/-- All identifiers in the information are valid. -/
def CInfo.Valid (i : CInfo) (l : Led) : Prop := ∀ k, 0 < i.holds k → 0 < l.refs k

/-- The rules: only references got before are closed, and the information given to H5Pset_vol names valid identifiers. -/
def Fair (s : St) (t : Tally) : Op → Prop
  | .closeId c => 0 < t.app c
  | .setVol _ _ i => i.Valid s.led
  | _ => True

def FairRun : St → List Op → Tally → Prop
  | _, [], _ => True
  | s, op :: ops, t => Fair s t op ∧ FairRun (s.step op).1 ops (tallyStep s t op (s.step op).2)

/-- Before the first call: the library holds the references `base`, one to the native connector among them. -/
def start (base : Nat → Nat) (plug : Option Nat) (next : Nat) : St := ⟨⟨base, 0⟩, none, plug, next, [], [], []⟩

structure Base (base : Nat → Nat) (next : Nat) : Prop where
  native : 0 < base 0
  fresh : ∀ k, next ≤ k → base k = 0

/-- The references of the library are exactly those in use, given to the application, and lost. -/
structure Balanced (base : Nat → Nat) (s : St) (t : Tally) : Prop where
  refs : ∀ k, s.led.refs k = base k + s.inUse k + t.app k + t.lost k
  blocks : s.led.blocks = s.usedBlocks + t.lostBlocks

end Verif.Conn
