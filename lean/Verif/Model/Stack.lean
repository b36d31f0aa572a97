import Verif.Model.Conn
import Verif.Model.Info

/-
Connector information compared and as text, through any number of connectors on top of each other: src/H5VL_log_info.cpp L69-86
(`H5VL_log_info_cmp`), L133-163 (`H5VL_log_info_to_str`), L175-216 (`H5VL_log_str_to_info`), and the calls of the library they make
for the connector below: H5VLcmp_connector_cls, H5VLcmp_connector_info, H5VLget_value, H5VLconnector_info_to_str,
H5VLregister_connector_by_value, H5VLconnector_str_to_info (HDF5 1.13/1.14).

A class of connectors is named by its value.  Information of other connectors than the log-based one is a number (`CInfo.own`), with a
comparison, and a text, of its own.
-/

namespace Verif.Stack
open Conn

/-- What the library knows: the class of an identifier (`none`: not valid), the class of the log-based connector, comparison, text and
reading of the information of the other classes, and the identifier found for a value. -/
structure Lib where
  cls : Nat → Option Nat
  log : Nat
  cmpOwn : Nat → Nat → Nat → Int
  text : Nat → Nat → Option Name
  parse : Nat → Name → Option Nat
  find : Nat → Option Nat

/-- Comparison of classes, which starts with their values. -/
def cmpVal (a b : Nat) : Int := if a < b then -1 else if b < a then 1 else 0

/-- `H5VLcmp_connector_cls (cmp_value, id1, id2)`: without effect on `*cmp_value` if an identifier is not valid. -/
def Lib.cmpCls (L : Lib) (v : Int) (c d : Nat) : Int :=
  match L.cls c, L.cls d with
  | some a, some b => cmpVal a b
  | _, _ => v

/-- `H5VLcmp_connector_info (cmp_value, id, info1, info2)` for an identifier of class `k` (`none`: not valid, without effect);
`v` is `*cmp_value` before.  The last line but one of the code is `H5VL_log_info_cmp` (L78-83).  Information taken for that of another
class is undefined. -/
def Lib.cmp (L : Lib) : Option Nat → Int → CInfo → CInfo → Res Int
  | none, v, _, _ => .ok v
  | some _, _, .null, .null => .ok 0
  | some _, _, .null, _ => .ok (-1)
  | some _, _, _, .null => .ok 1
  | some k, _, .own n, .own m => if k = L.log then .ub else .ok (L.cmpOwn k n m)
  | some k, v, .log c i, .log d j =>
    if k ≠ L.log then .ub
    else if L.cmpCls v c d = 0 then L.cmp (L.cls c) 0 i j else .ok (L.cmpCls v c d)
  | some _, _, _, _ => .ub

/-- `H5VLconnector_info_to_str` for an identifier of class `k`: `none` is NULL.  For the log-based connector L133-163, where
`under_value` stays -1 and the string NULL if `uvlid` is not valid. -/
def Lib.toText (L : Lib) : Option Nat → CInfo → Res (Option Name)
  | none, _ => .ok none
  | some _, .null => .ok none
  | some k, .own n => if k = L.log then .ub else .ok (L.text k n)
  | some k, .log c i =>
    if k ≠ L.log then .ub
    else do
      let s ← L.toText (L.cls c) i
      let t ← infoToStr ⟨(L.cls c).getD (2 ^ 32 - 1), s⟩
      pure (some t)

/-- Reading of the text `s` for class `k` (`H5VLconnector_str_to_info`), L175-216 for the log-based connector.  `uvlid` is negative if no
connector has the value; the first argument bounds the depth of the text. -/
def Lib.ofText (L : Lib) : Nat → Nat → Name → Res CInfo
  | 0, _, _ => .ub
  | f + 1, k, s =>
    if k = L.log then do
      let x ← strToInfo s
      match L.find x.value with
      | none => .err
      | some c =>
        match L.cls c, x.info with
        | some k', some t => do
          let i ← L.ofText f k' t
          pure (.log c i)
        | _, _ => pure (.log c .null)
    else match L.parse k s with
      | some n => pure (.own n)
      | none => pure .null

end Verif.Stack
