import Verif.Model.HexDump

/-
The text of a dump: lines of up to 16 bytes, each with its offset, the bytes in fixed columns and as characters.
-/

namespace Verif.Hex

/-- `n` columns. -/
def columns : Nat → List Byte → List Char
  | 0, _ => []
  | n + 1, [] => [' ', ' ', ' '] ++ columns n []
  | n + 1, b :: bs => hex2 b ++ columns n bs

def line (k : Nat) (row : List Byte) : List Char := offset k ++ columns 16 row ++ [' ', ' '] ++ row.map printable ++ ['\n']

/-- The lines of the bytes from `k` on. -/
def text (k : Nat) (bs : List Byte) : List Char :=
  if bs = [] then [] else line k (bs.take 16) ++ text (k + 16) (bs.drop 16)
termination_by bs.length
decreasing_by
  rename_i h
  have : 0 < bs.length := List.length_pos_iff.mpr h
  rw [List.length_drop]; omega

/-- The value of a hexadecimal digit; 16: not one. -/
def hexValue (c : Char) : Nat :=
  if 48 ≤ c.toNat ∧ c.toNat ≤ 57 then c.toNat - 48 else if 97 ≤ c.toNat ∧ c.toNat ≤ 102 then c.toNat - 87 else 16

/-- The number that digits tell. -/
def numeral (ds : List Char) : Nat := ds.foldl (fun n c => 16 * n + hexValue c) 0

end Verif.Hex
