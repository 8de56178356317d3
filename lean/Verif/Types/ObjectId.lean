import Verif.Types.Text

/-!
# `ObjectIdType` (`contrib/mongo.py:20-45`)

An `ObjectId` is the object whose number is the one of its twelve bytes.  `bson.objectid.ObjectId(text)` takes a text of 24 hexadecimal digits; everything else is an `InvalidId`.

Simplification: `bytes.fromhex`, which the library uses, skips spaces; texts with spaces are taken to be invalid here.
-/
namespace Verif.Types

open Verif.Py

/-- The value of a hexadecimal digit of `bytes.fromhex` (ASCII only). -/
def fromHexDigit (c : Char) : Option Nat :=
  if 48 ≤ c.toNat ∧ c.toNat ≤ 57 then some (c.toNat - 48)
  else if 97 ≤ c.toNat ∧ c.toNat ≤ 102 then some (c.toNat - 87)
  else if 65 ≤ c.toNat ∧ c.toNat ≤ 70 then some (c.toNat - 55)
  else none

/-- `bytes.fromhex(text)`, as a number read from the left. -/
def fromHex : Nat → List Char → Option Nat
  | a, [] => some a
  | a, c :: cs =>
    match fromHexDigit c with
    | some d => fromHex (16 * a + d) cs
    | none => none

/-- `bson.objectid.ObjectId(text)`; `none` is `InvalidId`. -/
def parseOid (cs : List Char) : Option Nat := if cs.length = 24 then fromHex 0 cs else none

/-- `isinstance(value, bson.objectid.ObjectId)`. -/
def isOid : Val → Bool
  | .obj n => decide (n < 2 ^ 96)
  | _ => false

/-- `str(value)`; on values which are neither text nor an `ObjectId` it is any function. -/
def oidStr (str : Val → String) : Val → String
  | .str s => s
  | .obj n => if n < 2 ^ 96 then String.ofList (hexText 24 n) else str (.obj n)
  | v => str v

/-- `ObjectIdType.to_native` (`contrib/mongo.py:36-42`). -/
def oidNative (str : Val → String) (v : Val) : R Val :=
  if isOid v then .ok v
  else
    match parseOid (oidStr str v).toList with
    | some n => .ok (.obj n)
    | none => convErr "convert"

/-- `ObjectIdType` (`contrib/mongo.py:20-45`). -/
def objectIdType (str : Val → String) : Leaf where
  toNative _ v := oidNative str v
  toPrimitive _ v := .ok (.str (oidStr str v))

end Verif.Types
