import Verif.Py.Regex
import Verif.Types.Text

/-!
# `IPAddressType`, `IPv4Type`, `IPv6Type`, `MACAddressType` (`types/net.py:27-118`)

The regular expressions are transcribed literally; blanks of verbose patterns are dropped and `re.I` is folded into the classes.
-/
namespace Verif.Types
open Verif.Py
open Verif.Py.Re (chr opt rep upTo range plus)

/-- `[a-b]` for ASCII bounds that are no letters. -/
def between (a b : Char) : Re := .cls fun c => decide (a.toNat ≤ c.toNat ∧ c.toNat ≤ b.toNat)

/-- Hexadecimal digits. -/
def isHex (c : Char) : Bool :=
  decide (48 ≤ c.toNat ∧ c.toNat ≤ 57) || decide (65 ≤ c.toNat ∧ c.toNat ≤ 70) || decide (97 ≤ c.toNat ∧ c.toNat ≤ 102)

/-- `[0-9A-F]` with `re.I`. -/
def hexCls : Re := .cls isHex

/-- `IPV4_OCTET = ( 25[0-5] | 2[0-4][0-9] | [0-1]?[0-9]{1,2} )` (`types/net.py:35`) -/
def ipv4Octet : Re :=
  .alt (.seq (chr '2') (.seq (chr '5') (between '0' '5')))
    (.alt (.seq (chr '2') (.seq (between '0' '4') (between '0' '9')))
      (.seq (opt (between '0' '1')) (range 1 2 (between '0' '9'))))

/-- `IPV4 = ( ((oct\.){3} oct) )` (`types/net.py:36`) -/
def ipv4 : Re := .seq (rep 3 (.seq ipv4Octet (chr '.'))) ipv4Octet

/-- `IPV6_H16 = [0-9A-F]{1,4}` (`types/net.py:38`) -/
def h16 : Re := range 1 4 hexCls

/-- `h16:` -/
def h16c : Re := .seq h16 (chr ':')

/-- `IPV6_L32 = (h16:h16|IPV4)` (`types/net.py:39`) -/
def l32 : Re := .alt (.seq h16 (.seq (chr ':') h16)) ipv4

/-- `::` -/
def dcolon : Re := .seq (chr ':') (chr ':')

/-- `( (h16:){,n} h16 )?` -/
def left (n : Nat) : Re := opt (.seq (upTo n h16c) h16)

/-- `IPV6` (`types/net.py:40-50`) -/
def ipv6 : Re :=
  .alt (.seq (rep 6 h16c) l32)
  (.alt (.seq dcolon (.seq (rep 5 h16c) l32))
  (.alt (.seq (opt h16) (.seq dcolon (.seq (rep 4 h16c) l32)))
  (.alt (.seq (left 1) (.seq dcolon (.seq (rep 3 h16c) l32)))
  (.alt (.seq (left 2) (.seq dcolon (.seq (rep 2 h16c) l32)))
  (.alt (.seq (left 3) (.seq dcolon (.seq (rep 1 h16c) l32)))
  (.alt (.seq (left 4) (.seq dcolon l32))
  (.alt (.seq (left 5) (.seq dcolon h16))
        (.seq (left 6) dcolon))))))))

/-- `IPv4Type.REGEX = ^IPV4$` (`types/net.py:75`) -/
def ipv4Regex : Re := .seq .bol (.seq ipv4 .eol)
/-- `IPv6Type.REGEX = ^IPV6$` (`types/net.py:85`) -/
def ipv6Regex : Re := .seq .bol (.seq ipv6 .eol)
/-- `IPAddressType.REGEX = ^IPV4|IPV6$` (`types/net.py:57`): the alternation is not grouped. -/
def ipRegex : Re := .alt (.seq .bol ipv4) (.seq ipv6 .eol)

/-- `validate_`: `REGEX.match(value)` or `ValidationError` (`types/net.py:59-65`, `111-113`) -/
def validateRe (msg : Msg) (r : Re) : Validator := fun _ v =>
  match v with
  | .str s => if r.test s.toList then .ok () else validErr msg
  | _ => .error (.other "TypeError")

/-- A `StringType` with one more pattern. -/
def patternType (msg : Msg) (r : Re) (re : Option (String → Bool)) (max min : Option Nat) : Leaf where
  toNative _ v := stringNative v
  validators := [validateLength max min, validateRegex re, validateRe msg r]

/-- `IPv4Type` (`types/net.py:71-78`) -/
def ipv4Type (re : Option (String → Bool) := none) (max min : Option Nat := none) : Leaf := patternType "ipv4" ipv4Regex re max min
/-- `IPv6Type` (`types/net.py:81-90`) -/
def ipv6Type (re : Option (String → Bool) := none) (max min : Option Nat := none) : Leaf := patternType "ipv6" ipv6Regex re max min
/-- `IPAddressType` (`types/net.py:53-68`) -/
def ipType (re : Option (String → Bool) := none) (max min : Option Nat := none) : Leaf := patternType "ip" ipRegex re max min

/-! ## MAC addresses -/

/-- `[0-9a-f]{n}` -/
def hexN (n : Nat) : Re := rep n hexCls

/-- `MACAddressType.REGEX` (`types/net.py:98-106`): the third alternative has no `$`. -/
def macRegex : Re :=
  .alt (.seq .bol (.seq (rep 5 (.seq (hexN 2) (chr '-'))) (.seq (hexN 2) .eol)))
  (.alt (.seq .bol (.seq (rep 5 (.seq (hexN 2) (chr ':'))) (.seq (hexN 2) .eol)))
  (.alt (.seq .bol (hexN 12))
  (.alt (.seq .bol (.seq (hexN 6) (.seq (.cls fun c => c == '-' || c == ':') (.seq (hexN 6) .eol))))
        (.seq .bol (.seq (hexN 4) (.seq (rep 2 (.seq (chr '.') (hexN 4))) .eol))))))

/-- Pieces of two characters (`value[i:i+2] for i in range(0, len(value), 2)`), joined with colons. -/
def colonPairs : List Char → List Char
  | a :: b :: c :: r => a :: b :: ':' :: colonPairs (c :: r)
  | r => r

/-- `value.replace(':', '').replace('.', '').replace('-', '')` -/
def macDigits (cs : List Char) : List Char := ((cs.filter (· != ':')).filter (· != '.')).filter (· != '-')

/-- `MACAddressType.to_primitive` (`types/net.py:115-117`) -/
def macPrimitive : Val → R Val
  | .str s => .ok (.str (String.ofList (colonPairs (macDigits s.toList))))
  | _ => .error (.other "AttributeError")

/-- `MACAddressType` (`types/net.py:95-117`) -/
def macType (re : Option (String → Bool) := none) (max min : Option Nat := none) : Leaf where
  toNative _ v := stringNative v
  toPrimitive _ v := macPrimitive v
  validators := [validateLength max min, validateRegex re, validateRe "mac" macRegex]

end Verif.Types
