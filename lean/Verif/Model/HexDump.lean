import Verif.Model.Bytes

/-
`hexDump`, src/H5VL_logi_debug.cpp L39-91 (compiled with `LOGVOL_DEBUG`).  What is printed is a list of characters.  `buff` has 17
elements that are not initialised.
-/

namespace Verif.Hex

/-- `buff`: elements never set are `none`. -/
abbrev Buff := Nat → Option Char

/-- A store to `buff`. -/
def put (buf : Buff) (k : Nat) (c : Char) : Res Buff := if 17 ≤ k then .ub else .ok fun j => if j = k then some c else buf j

/-- `%s`: the characters from `k` on up to the zero; `n` elements are left. -/
def cstr (buf : Buff) : Nat → Nat → Res (List Char)
  | 0, _ => .ub
  | n + 1, k => match buf k with
    | none => .ub
    | some c => if c = '\x00' then .ok [] else (cstr buf n (k + 1)).bind fun s => .ok (c :: s)

/-- `"  %s\n"` (L64, L90). -/
def endLine (buf : Buff) : Res (List Char) := (cstr buf 17 0).bind fun s => .ok (' ' :: ' ' :: s ++ ['\n'])

def digits : List Char := ['0', '1', '2', '3', '4', '5', '6', '7', '8', '9', 'a', 'b', 'c', 'd', 'e', 'f']
def digit (n : Nat) : Char := digits.getD n '0'

/-- `" %02x"` (L71). -/
def hex2 (b : Byte) : List Char := [' ', digit (b.toNat / 16), digit (b.toNat % 16)]

/-- `"  %04lx "` (L67). -/
def offset (i : Nat) : List Char :=
  ' ' :: ' ' :: (List.replicate (4 - (Nat.toDigits 16 i).length) '0' ++ Nat.toDigits 16 i) ++ [' ']

/-- A printable character, or a dot (L74-78). -/
def printable (b : Byte) : Char := if b.toNat < 0x20 ∨ 0x7e < b.toNat then '.' else Char.ofNat b.toNat

structure St where
  i : Nat
  buf : Buff
  out : List Char

/-- The beginning of a line (L62-68). -/
def begin (s : St) : Res (List Char) :=
  if s.i % 16 = 0 then
    if s.i = 0 then .ok (s.out ++ offset s.i)
    else (endLine s.buf).bind fun e => .ok (s.out ++ e ++ offset s.i)
  else .ok s.out

/-- One iteration (L59-81). -/
def step (s : St) (b : Byte) : Res St :=
  (begin s).bind fun out =>
  (put s.buf (s.i % 16) (printable b)).bind fun buf =>
  (put buf (s.i % 16 + 1) '\x00').bind fun buf =>
  .ok ⟨s.i + 1, buf, out ++ hex2 b⟩

def steps : List Byte → St → Res St
  | [], s => .ok s
  | b :: bs, s => (step s b).bind (steps bs)

/-- The spaces after the last byte (L84-87). -/
def padding (i : Nat) : Nat := if i % 16 = 0 then 0 else 16 - i % 16

/-- What is printed to `fp` (L50-91). -/
def hexDump (buf : Buff) (bs : List Byte) : Res (List Char) :=
  (steps bs ⟨0, buf, []⟩).bind fun s =>
  (endLine s.buf).bind fun e =>
  .ok (s.out ++ List.replicate (3 * padding s.i) ' ' ++ e)

/-- The version with a file name (L39-46, L56): what is added to the file, and what is printed to `stdout`; `fclose` is called also if the
file could not be opened. -/
def hexDumpFile (canOpen : Bool) (desc : Option (List Char)) (buf : Buff) (bs : List Byte) : Res (List Char × List Char) :=
  if canOpen then (hexDump buf bs).bind fun t => .ok (t, (desc.map (· ++ [':', '\n'])).getD []) else .ub

end Verif.Hex
