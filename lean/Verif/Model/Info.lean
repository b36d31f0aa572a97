import Verif.Model.Names

/-
Connector information as text: src/H5VL_log_info.cpp L133-163 (`H5VL_log_info_to_str`), L175-216 (`H5VL_log_str_to_info`).
Strings are lists of characters without the terminating zero.
-/

namespace Verif

/-- Connector information: value of the under VOL as an unsigned number, and the string of its own information (`none`: NULL). -/
structure VInfo where
  value : Nat
  info : Option Name
deriving DecidableEq, Repr

/-- The string printed by L155-158. -/
def infoText (i : VInfo) : Name :=
  "under_vol=".toList ++ digits i.value ++ ";under_info={".toList ++ i.info.getD [] ++ "}".toList

/-- `H5VL_log_info_to_str`: `sprintf` into a buffer of `32 + strlen (under_vol_string)` bytes; writing more is undefined. -/
def infoToStr (i : VInfo) : Res Name :=
  if (infoText i).length + 1 ≤ 32 + (i.info.getD []).length then .ok (infoText i) else .ub

/-- Value of a list of decimal digits. -/
def readDigits (l : Name) : Nat := l.foldl (fun a c => a * 10 + (c.toNat - 48)) 0

def isSpace (c : Char) : Bool := c = ' ' || c = '\t' || c = '\n' || c = '\r' || c.toNat = 11 || c.toNat = 12

/-- Conversion `%u`: white space, sign, digits.  A number that cannot be represented is undefined.  `none`: no match. -/
def scanU (s : Name) : Option (Res Nat) :=
  let t := s.dropWhile isSpace
  let u := if t.head? = some '+' ∨ t.head? = some '-' then t.tail else t
  let ds := u.takeWhile Char.isDigit
  if ds = [] then none
  else if 2 ^ 64 ≤ readDigits ds then some .ub
  else if t.head? = some '-' then some (.ok ((2 ^ 64 - readDigits ds) % 2 ^ 32)) else some (.ok (readDigits ds % 2 ^ 32))

/-- `sscanf (str, "under_vol=%u;", &under_vol_value)`: without a match the variable is used uninitialised. -/
def scanValue (s : Name) : Res Nat :=
  if s.take 10 = "under_vol=".toList then (scanU (s.drop 10)).getD .ub else .ub

/-- The text between the first `{` and the last `}` (L194-205).  Without them the assertion fails or a null pointer is used. -/
def scanInfo (s : Name) : Res Name :=
  let r := s.dropWhile (fun c => c != '{')
  let b := r.tail.reverse.dropWhile (fun c => c != '}')
  if r = [] ∨ b = [] then .ub else .ok b.tail.reverse

/-- `H5VL_log_str_to_info`. -/
def strToInfo (s : Name) : Res VInfo := do
  let v ← scanValue s
  let i ← scanInfo s
  return ⟨v, if i = [] then none else some i⟩

end Verif
