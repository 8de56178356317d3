import Verif.Types.DateTime

/-!
# `strptime` and `strftime` with formats of the user

`DateType(formats=...)`, `DateTimeType(formats=..., serialized_format=...)` (`types/base.py:648-684`, `791-804`, `844-852`, `919-922`) hand formats to the standard library.  This file is a
model of CPython's `Lib/_strptime.py` (a regular expression with ordered alternatives and backtracking, matched at the start of the text; everything must be consumed) and of `strftime`, for
the directives `%Y %y %m %d %H %M %S %f %z %%`.  Other directives (names of days and months, `%j`, `%p`, week numbers, ...) are not modelled: `parseFormat` has no result for them.
-/
namespace Verif.Py
open Verif.Types

/-- A piece of a format. -/
inductive Item
  /-- `%Y` -/
  | year
  /-- `%y` -/
  | year2
  /-- `%m` -/
  | month
  /-- `%d` -/
  | day
  /-- `%H` -/
  | hour
  /-- `%M` -/
  | minute
  /-- `%S` -/
  | second
  /-- `%f` -/
  | micro
  /-- `%z` -/
  | zone
  /-- any other character, and `%%` -/
  | lit (c : Char)
  /-- white space -/
  | ws (cs : List Char)
deriving DecidableEq, Repr

/-- The directive of a letter. -/
def directive : Char → Option Item
  | 'Y' => some .year
  | 'y' => some .year2
  | 'm' => some .month
  | 'd' => some .day
  | 'H' => some .hour
  | 'M' => some .minute
  | 'S' => some .second
  | 'f' => some .micro
  | 'z' => some .zone
  | '%' => some (.lit '%')
  | _ => none

/-- One more piece in front; white space is one piece (`\s+` of `TimeRE.pattern`). -/
def pushItem : Item → List Item → List Item
  | .ws a, .ws b :: its => .ws (a ++ b) :: its
  | it, its => it :: its

/-- The pieces of a format; `none` if a directive is unknown or missing after `%`. -/
def parseFormat : List Char → Option (List Item)
  | [] => some []
  | '%' :: d :: cs =>
    match directive d, parseFormat cs with
    | some it, some its => some (pushItem it its)
    | _, _ => none
  | ['%'] => none
  | c :: cs =>
    match parseFormat cs with
    | some its => some (pushItem (if isSpace c then .ws [c] else .lit c) its)
    | none => none

/-! ## Reading -/

/-- An ASCII digit from `lo` to `hi`. -/
def rng (lo hi : Nat) (c : Char) : Option Nat :=
  if 48 + lo ≤ c.toNat ∧ c.toNat ≤ 48 + hi then some (c.toNat - 48) else none

/-- Two characters. -/
def cls2 (a b : Char → Option Nat) : List Char → List (Nat × List Char)
  | c :: d :: r =>
    match a c, b d with
    | some x, some y => [(10 * x + y, r)]
    | _, _ => []
  | _ => []

/-- One character. -/
def cls1 (a : Char → Option Nat) : List Char → List (Nat × List Char)
  | c :: r =>
    match a c with
    | some x => [(x, r)]
    | none => []
  | _ => []

/-- `1[0-2]|0[1-9]|[1-9]` -/
def monthAlts (cs : List Char) : List (Nat × List Char) :=
  cls2 (rng 1 1) (rng 0 2) cs ++ cls2 (rng 0 0) (rng 1 9) cs ++ cls1 (rng 1 9) cs

/-- A space and a digit. -/
def spaceDigit : List Char → List (Nat × List Char)
  | ' ' :: r => cls1 (rng 1 9) r
  | _ => []

/-- `3[0-1]|[1-2]\d|0[1-9]|[1-9]| [1-9]` -/
def dayAlts (cs : List Char) : List (Nat × List Char) :=
  cls2 (rng 3 3) (rng 0 1) cs ++ cls2 (rng 1 2) digitVal cs ++ cls2 (rng 0 0) (rng 1 9) cs ++ cls1 (rng 1 9) cs ++ spaceDigit cs

/-- `2[0-3]|[0-1]\d|\d` -/
def hourAlts (cs : List Char) : List (Nat × List Char) :=
  cls2 (rng 2 2) (rng 0 3) cs ++ cls2 (rng 0 1) digitVal cs ++ cls1 digitVal cs

/-- `[0-5]\d|\d` -/
def minuteAlts (cs : List Char) : List (Nat × List Char) := cls2 (rng 0 5) digitVal cs ++ cls1 digitVal cs

/-- `6[0-1]|[0-5]\d|\d` -/
def secondAlts (cs : List Char) : List (Nat × List Char) :=
  cls2 (rng 6 6) (rng 0 1) cs ++ cls2 (rng 0 5) digitVal cs ++ cls1 digitVal cs

/-- Exactly `k` ASCII digits. -/
def takeAscii : Nat → Nat → List Char → Option (Nat × List Char)
  | 0, a, cs => some (a, cs)
  | _ + 1, _, [] => none
  | k + 1, a, c :: cs =>
    match rng 0 9 c with
    | some d => takeAscii k (10 * a + d) cs
    | none => none

/-- `k` digits of a fraction, in microseconds. -/
def microOf (k : Nat) (cs : List Char) : List (Nat × List Char) :=
  match takeAscii k 0 cs with
  | some (n, r) => [(n * 10 ^ (6 - k), r)]
  | none => []

/-- `[0-9]{1,6}`, greedy. -/
def microAlts (cs : List Char) : List (Nat × List Char) :=
  microOf 6 cs ++ microOf 5 cs ++ microOf 4 cs ++ microOf 3 cs ++ microOf 2 cs ++ microOf 1 cs

/-- Exactly `k` digits. -/
def digitAlts (k : Nat) (cs : List Char) : List (Nat × List Char) :=
  match takeDigits k 0 cs with
  | some p => [p]
  | none => []

/-- An optional colon: whether it is there, and the rest. -/
def colon : List Char → Bool × List Char
  | ':' :: r => (true, r)
  | r => (false, r)

/-- An offset that is refused: colons are used inconsistently. -/
def badOffset : Int := 86400

/-- `±hhmmss` in seconds. -/
def zoneSecs (sign : Char) (h m s : Nat) : Int := (if sign = '-' then -1 else 1) * ((h * 3600 + m * 60 + s : Nat) : Int)

/-- The seconds of an offset, which are optional, but taken if they are there. -/
def zoneTail (sign : Char) (h m : Nat) (k : Bool) (r : List Char) : List (Int × List Char) :=
  (cls2 (rng 0 5) digitVal (colon r).2).map (fun p => (if k = (colon r).1 then zoneSecs sign h m p.1 else badOffset, p.2)) ++ [(zoneSecs sign h m 0, r)]

/-- `[+-]\d\d:?[0-5]\d(:?[0-5]\d)?|Z`.  (The fraction of a second is not modelled; it is refused here.) -/
def zoneAlts : List Char → List (Int × List Char)
  | 'Z' :: r => [(0, r)]
  | c :: r =>
    if c = '+' ∨ c = '-' then
      match takeDigits 2 0 r with
      | some (h, r) => (cls2 (rng 0 5) digitVal (colon r).2).flatMap fun p => zoneTail c h p.1 (colon r).1 p.2
      | none => []
    else []
  | [] => []

/-- The lower case of an ASCII letter. -/
def lowerAscii (c : Char) : Char := if 65 ≤ c.toNat ∧ c.toNat ≤ 90 then Char.ofNat (c.toNat + 32) else c

/-- Letters are compared ignoring case (`re.IGNORECASE`); for ASCII letters only. -/
def sameLetter (a b : Char) : Bool := lowerAscii a == lowerAscii b

/-- A given character. -/
def litAlts (x : Char) : List Char → List (List Char)
  | c :: r => if sameLetter x c then [r] else []
  | [] => []

/-- `\s+`, greedy: the rests. -/
def wsAlts : List Char → List (List Char)
  | c :: r => if isSpace c then wsAlts r ++ [r] else []
  | [] => []

/-- The year of two digits (`_strptime.py`: POSIX). -/
def century (n : Nat) : Nat := if n ≤ 68 then 2000 + n else 1900 + n

/-- The ways to read a piece at the start of a text, in the order in which they are tried. -/
def readItem (t : DateTime) (cs : List Char) : Item → List (DateTime × List Char)
  | .year => (digitAlts 4 cs).map fun p => ({ t with date := { t.date with y := p.1 } }, p.2)
  | .year2 => (digitAlts 2 cs).map fun p => ({ t with date := { t.date with y := century p.1 } }, p.2)
  | .month => (monthAlts cs).map fun p => ({ t with date := { t.date with m := p.1 } }, p.2)
  | .day => (dayAlts cs).map fun p => ({ t with date := { t.date with d := p.1 } }, p.2)
  | .hour => (hourAlts cs).map fun p => ({ t with h := p.1 }, p.2)
  | .minute => (minuteAlts cs).map fun p => ({ t with mi := p.1 }, p.2)
  | .second => (secondAlts cs).map fun p => ({ t with s := p.1 }, p.2)
  | .micro => (microAlts cs).map fun p => ({ t with us := p.1 }, p.2)
  | .zone => (zoneAlts cs).map fun p => ({ t with tz := some p.1 }, p.2)
  | .lit x => (litAlts x cs).map fun r => (t, r)
  | .ws _ => (wsAlts cs).map fun r => (t, r)

/-- The first successful match with backtracking. -/
def readItems : List Item → DateTime → List Char → Option (DateTime × List Char)
  | [], t, cs => some (t, cs)
  | it :: its, t, cs => (readItem t cs it).findSome? fun p => readItems its p.1 p.2

/-- What is not in the text: 1900-01-01 00:00:00. -/
def strpDefault : DateTime := ⟨⟨1900, 1, 1⟩, 0, 0, 0, 0, none⟩

/-- An offset of less than a day (`datetime.timezone`). -/
def offsetOk : Option Int → Bool
  | some o => o.natAbs < 86400
  | none => true

/-- `datetime.datetime.strptime(text, format)`; `none` is `ValueError`.  (A format with a repeated directive raises `re.error`; not modelled.) -/
def strptime (its : List Item) (cs : List Char) : Option DateTime :=
  match readItems its strpDefault cs with
  | some (t, []) => if offsetOk t.tz then mkDateTime t else none
  | _ => none

/-! ## Writing -/

/-- A piece of `strftime`; glibc does not pad the year.  `%z` raises for an offset of a day or more. -/
def writeItem (t : DateTime) : Item → Option (List Char)
  | .year => some (natText t.date.y)
  | .year2 => some (two (t.date.y % 100))
  | .month => some (two t.date.m)
  | .day => some (two t.date.d)
  | .hour => some (two t.h)
  | .minute => some (two t.mi)
  | .second => some (two t.s)
  | .micro => some (six t.us)
  | .zone => tzText t.tz
  | .lit c => some [c]
  | .ws cs => some cs

/-- `value.strftime(format)`. -/
def strftime (t : DateTime) : List Item → Option (List Char)
  | [] => some []
  | it :: its =>
    match writeItem t it, strftime t its with
    | some a, some b => some (a ++ b)
    | _, _ => none

end Verif.Py

namespace Verif.Types
open Verif.Py

/-- `strptime` with each of the formats (`types/base.py:678-682`, `846-850`); a value that is no text raises `TypeError`, which counts as not parsed. -/
def parseFormats (formats : List (List Item)) : Val → Option DateTime
  | .str s => firstSome (formats.map strptime) s.toList
  | _ => none

/-- `DateTimeType(formats=...)` (`types/base.py:797`, `844-858`): formats, if there are any, come before the parser. -/
def withFormats (c : DTCfg) (formats : List (List Item)) : DTCfg :=
  if formats.isEmpty then c else { c with parse := some (parseFormats formats) }

/-- `DateTimeType(serialized_format=...)` (`types/base.py:798`, `919-922`): an empty format counts as none (`or`), and then the standard one is used. -/
def dtPrimitiveF (ser : Option (List Item)) (v : Val) : R Val :=
  match ser, v with
  | none, v => dtPrimitive v
  | some [], v => dtPrimitive v
  | some f, .datetime t =>
    match strftime t f with
    | some s => .ok (.str (String.ofList s))
    | none => .error (.other "ValueError")
  | some _, _ => .error (.other "AttributeError")

/-- `DateTimeType(formats=..., serialized_format=...)` (`types/base.py:791-804`, `844-852`, `919-922`). -/
def dateTimeTypeF (c : DTCfg) (formats : List (List Item)) (ser : Option (List Item)) : Leaf where
  toNative _ v := dtNative (withFormats c formats) v
  toPrimitive _ v := dtPrimitiveF ser v
  validators := [validateTz c]

/-- `DateType(formats=...)` (`types/base.py:648-687`): the export always uses `%Y-%m-%d`. -/
def dateTypeF (formats : List (List Item)) : Leaf := dateType (formats.map fun f cs => (strptime f cs).map DateTime.date)

end Verif.Types
