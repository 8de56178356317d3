import Verif.Py.Text
import Verif.Core.Schema

/-!
# `StringType`, `UUIDType`, `HashType`, `BooleanType` (`types/base.py:353-437`, `560-634`)
-/
namespace Verif.Types
open Verif.Py

/-! ## UTF-8 -/

/-- A continuation byte `10xxxxxx`. -/
def cont (b : Nat) : Bool := decide (0x80 ≤ b ∧ b < 0xC0)

/-- Decode one code point from UTF-8 bytes (RFC 3629: shortest form, no surrogates, up to U+10FFFF). -/
def utf8Next : List Nat → Option (Nat × List Nat)
  | [] => none
  | a :: r =>
    if a < 0x80 then some (a, r)
    else if 0xC2 ≤ a ∧ a < 0xE0 then
      match r with
      | b :: r => if cont b then some ((a - 0xC0) * 64 + (b - 0x80), r) else none
      | _ => none
    else if 0xE0 ≤ a ∧ a < 0xF0 then
      match r with
      | b :: c :: r =>
        let n := ((a - 0xE0) * 64 + (b - 0x80)) * 64 + (c - 0x80)
        if cont b && cont c && decide (0x800 ≤ n ∧ ¬ (0xD800 ≤ n ∧ n < 0xE000)) then some (n, r) else none
      | _ => none
    else if 0xF0 ≤ a ∧ a < 0xF5 then
      match r with
      | b :: c :: d :: r =>
        let n := (((a - 0xF0) * 64 + (b - 0x80)) * 64 + (c - 0x80)) * 64 + (d - 0x80)
        if cont b && cont c && cont d && decide (0x10000 ≤ n ∧ n < 0x110000) then some (n, r) else none
      | _ => none
    else none

/-- `str(bytes, 'utf-8')`; `none` is `UnicodeError`; fuel `bs.length`. -/
def utf8Decode : Nat → List Nat → Option (List Char)
  | _, [] => some []
  | 0, _ => none
  | f + 1, bs =>
    match utf8Next bs with
    | some (n, r) => (utf8Decode f r).map (Char.ofNat n :: ·)
    | none => none

/-- UTF-8 bytes of a character (`str.encode`). -/
def utf8Char (c : Char) : List Nat :=
  let n := c.toNat
  if n < 0x80 then [n]
  else if n < 0x800 then [0xC0 + n / 64, 0x80 + n % 64]
  else if n < 0x10000 then [0xE0 + n / 4096, 0x80 + n / 64 % 64, 0x80 + n % 64]
  else [0xF0 + n / 262144, 0x80 + n / 4096 % 64, 0x80 + n / 64 % 64, 0x80 + n % 64]

/-! ## StringType -/

/-- `StringType.to_native` (`types/base.py:412-425`). -/
def stringNative : Val → R Val
  | .str s => .ok (.str s)
  | .bytes bs =>
    match utf8Decode bs.length bs with
    | some cs => .ok (.str (String.ofList cs))
    | none => convErr "decode"
  | .int i => .ok (.str (String.ofList (intText i)))
  | _ => convErr "convert"

/-- `self.max_length is not None and length > self.max_length` -/
def tooLong : Option Nat → Nat → Bool
  | some m, n => decide (m < n)
  | none, _ => false

/-- `self.min_length is not None and length < self.min_length` -/
def tooShort : Option Nat → Nat → Bool
  | some m, n => decide (n < m)
  | none, _ => false

/-- `StringType.validate_length` (`types/base.py:427-433`).  Values that are no text never get here in an import
(validators run on converted values). -/
def validateLength (max min : Option Nat) : Validator := fun _ v =>
  match v with
  | .str s =>
    if tooLong max s.length then validErr "max_length"
    else if tooShort min s.length then validErr "min_length"
    else .ok ()
  | _ => .error (.other "TypeError")

/-- `StringType.validate_regex` (`types/base.py:435-437`): `self.regex.match(value)` is any predicate on texts. -/
def validateRegex (re : Option (String → Bool)) : Validator := fun _ v =>
  match re, v with
  | none, _ => .ok ()
  | some f, .str s => if f s then .ok () else validErr "regex"
  | some _, _ => .error (.other "TypeError")

/-- `StringType(regex, max_length, min_length)` (`types/base.py:384-437`). -/
def stringType (re : Option (String → Bool) := none) (max min : Option Nat := none) : Leaf where
  toNative _ v := stringNative v
  validators := [validateLength max min, validateRegex re]

/-! ## HashType -/

/-- `HashType.to_native` (`types/base.py:570-579`). -/
def hashNative (len : Nat) (v : Val) : R Val :=
  match stringNative v with
  | .ok (.str s) =>
    if s.length ≠ len then validErr "hash_length"
    else if (parseHex s.toList).isNone then convErr "hash_hex"
    else .ok (.str s)
  | r => r

/-- `MD5Type` is `hashType 32`, `SHA1Type` is `hashType 40` (`types/base.py:582-595`). -/
def hashType (len : Nat) (re : Option (String → Bool) := none) (max min : Option Nat := none) : Leaf where
  toNative _ v := hashNative len v
  validators := [validateLength max min, validateRegex re]

/-! ## BooleanType -/

/-- `TRUE_VALUES` (`types/base.py:611`) -/
def trueValues : List String := ["True", "true", "1"]
/-- `FALSE_VALUES` (`types/base.py:612`) -/
def falseValues : List String := ["False", "false", "0"]

/-- `BooleanType.to_native` (`types/base.py:621-634`). -/
def booleanNative : Val → R Val
  | .str s =>
    if s ∈ trueValues then .ok (.bool true)
    else if s ∈ falseValues then .ok (.bool false)
    else convErr "bool"
  | .int i => if i = 0 then .ok (.bool false) else if i = 1 then .ok (.bool true) else convErr "bool"
  | .bool b => .ok (.bool b)
  | _ => convErr "bool"

/-- `BooleanType` -/
def booleanType : Leaf where
  toNative _ v := booleanNative v

/-! ## UUIDType -/

/-- `s.replace(pat, '')`, left to right; `skip` characters of a match are still to be dropped. -/
def removeSub (pat : List Char) : Nat → List Char → List Char
  | _, [] => []
  | skip + 1, _ :: cs => removeSub pat skip cs
  | 0, c :: cs => if pat.isPrefixOf (c :: cs) then removeSub pat (pat.length - 1) cs else c :: removeSub pat 0 cs

/-- `s.strip('{}')` -/
def stripBraces (cs : List Char) : List Char :=
  let p := fun c => c == '{' || c == '}'
  (cs.dropWhile p).reverse.dropWhile p |>.reverse

/-- `hex.replace('urn:', '').replace('uuid:', '').strip('{}').replace('-', '')` (`uuid.UUID.__init__`) -/
def uuidHex (cs : List Char) : List Char :=
  (stripBraces (removeSub "uuid:".toList 0 (removeSub "urn:".toList 0 cs))).filter (· ≠ '-')

/-- `uuid.UUID(text)`; `none` is `ValueError`.  (`int(hex, 16)` of 32 characters is below 2^128, and never negative as
all `-` are gone.) -/
def parseUuid (cs : List Char) : Option Nat :=
  if (uuidHex cs).length = 32 then (parseHex (uuidHex cs)).map Int.toNat else none

/-- `UUIDType.to_native` (`types/base.py:372-378`).  `uuid.UUID(value)` calls `value.replace(...)`: objects without that
method (ints, lists, ...) raise `AttributeError`, which is not caught.  UUIDs are 128-bit numbers; larger ones do not exist and are given no
meaning. -/
def uuidNative : Val → R Val
  | .uuid n => if n < 2 ^ 128 then .ok (.uuid n) else convErr "no such UUID"
  | .str s =>
    match parseUuid s.toList with
    | some n => .ok (.uuid n)
    | none => convErr "convert"
  | .none => convErr "convert"
  | .bytes _ => convErr "convert"
  | .date _ => convErr "convert"
  | .datetime _ => convErr "convert"
  | _ => .error (.other "AttributeError")

/-- A hexadecimal digit character (lower case). -/
def hexDigit (d : Nat) : Char := if d < 10 then digit d else Char.ofNat (87 + d)

/-- `'%0{w}x' % n` for `n < 16 ^ w`. -/
def hexText : Nat → Nat → List Char
  | 0, _ => []
  | w + 1, n => hexText w (n / 16) ++ [hexDigit (n % 16)]

/-- `str(uuid)`: 8-4-4-4-12 -/
def uuidText (n : Nat) : List Char :=
  let h := hexText 32 n
  h.take 8 ++ '-' :: (h.drop 8).take 4 ++ '-' :: (h.drop 12).take 4 ++ '-' :: (h.drop 16).take 4 ++ '-' :: h.drop 20

/-- `UUIDType.to_primitive`: `str(value)` (`types/base.py:380-381`); `str` on other values is any function. -/
def uuidPrimitive (str : Val → String) : Val → R Val
  | .uuid n => .ok (.str (String.ofList (uuidText n)))
  | .str s => .ok (.str s)
  | v => .ok (.str (str v))

/-- `UUIDType` (`types/base.py:353-381`). -/
def uuidType (str : Val → String) : Leaf where
  toNative _ v := uuidNative v
  toPrimitive _ v := uuidPrimitive str v

end Verif.Types
