import Verif.Py.Calendar
import Verif.Types.Number

/-!
# `DateType`, `DateTimeType`, `UTCDateTimeType`, `TimestampType`, `TimedeltaType` (`types/base.py:637-1023`)
-/
namespace Verif.Types
open Verif.Py

/-! ## Reading digits -/

/-- Exactly `k` digits (`\d{k}`), their value and the rest. -/
def takeDigits : Nat → Nat → List Char → Option (Nat × List Char)
  | 0, a, cs => some (a, cs)
  | _ + 1, _, [] => none
  | k + 1, a, c :: cs =>
    match digitVal c with
    | some d => takeDigits k (10 * a + d) cs
    | none => none

/-- Up to `k` digits, greedily: value, how many, rest. -/
def takeUpTo : Nat → Nat → Nat → List Char → Nat × Nat × List Char
  | 0, a, n, cs => (a, n, cs)
  | _ + 1, a, n, [] => (a, n, [])
  | k + 1, a, n, c :: cs =>
    match digitVal c with
    | some d => takeUpTo k (10 * a + d) (n + 1) cs
    | none => (a, n, c :: cs)

/-- A given character. -/
def eat (x : Char) : List Char → Option (List Char)
  | c :: cs => if c = x then some cs else none
  | [] => none

/-- `$` without `re.MULTILINE`: the end, or before a final newline. -/
def atEnd : List Char → Bool
  | [] => true
  | ['\n'] => true
  | _ => false

/-! ## DateType -/

/-- The `%m` of `strptime`: `1[0-2]|0[1-9]|[1-9]`, followed by `-`. -/
def strpMonth : List Char → Option (Nat × List Char)
  | '1' :: '0' :: '-' :: r => some (10, r)
  | '1' :: '1' :: '-' :: r => some (11, r)
  | '1' :: '2' :: '-' :: r => some (12, r)
  | '0' :: c :: '-' :: r => if isAsciiDigit c && c != '0' then some (c.toNat - 48, r) else none
  | c :: '-' :: r => if isAsciiDigit c && c != '0' then some (c.toNat - 48, r) else none
  | _ => none

/-- The `%d` of `strptime`: `3[0-1]|[1-2]\d|0[1-9]|[1-9]| [1-9]`, and nothing after it. -/
def strpDay : List Char → Option Nat
  | ['3', '0'] => some 30
  | ['3', '1'] => some 31
  | ['1', c] => (digitVal c).map (10 + ·)
  | ['2', c] => (digitVal c).map (20 + ·)
  | ['0', c] => if isAsciiDigit c && c != '0' then some (c.toNat - 48) else none
  | [' ', c] => if isAsciiDigit c && c != '0' then some (c.toNat - 48) else none
  | [c] => if isAsciiDigit c && c != '0' then some (c.toNat - 48) else none
  | _ => none

/-- A date if it exists in the calendar (`datetime.date(y, m, d)`). -/
def mkDate (y m d : Nat) : Option Date := if DateOk ⟨y, m, d⟩ then some ⟨y, m, d⟩ else none

/-- `datetime.datetime.strptime(text, '%Y-%m-%d').date()`; `none` is `ValueError`. -/
def strpDate (cs : List Char) : Option Date :=
  match takeDigits 4 0 cs with
  | some (y, r) =>
    match eat '-' r with
    | some r =>
      match strpMonth r with
      | some (m, r) =>
        match strpDay r with
        | some d => mkDate y m d
        | none => none
      | none => none
    | none => none
  | none => none

/-- The formats of a `DateType`: the default, or any list of `strptime` formats, each an arbitrary function. -/
def dateFormats (formats : List (List Char → Option Date)) : List (List Char → Option Date) :=
  if formats.isEmpty then [strpDate] else formats

/-- First format that parses (`types/base.py:678-682`). -/
def firstSome (fs : List (List Char → Option α)) (cs : List Char) : Option α :=
  match fs with
  | [] => none
  | f :: fs =>
    match f cs with
    | some a => some a
    | none => firstSome fs cs

/-- `DateType.to_native` (`types/base.py:672-684`). -/
def dateNative (formats : List (List Char → Option Date)) : Val → R Val
  | .datetime t => .ok (.date t.date)
  | .date d => .ok (.date d)
  | .str s =>
    match firstSome (dateFormats formats) s.toList with
    | some d => .ok (.date d)
    | none => convErr "parse"
  | _ => convErr "parse"

/-- Two digits, zero-padded. -/
def two (n : Nat) : List Char := [digit (n / 10), digit (n % 10)]

/-- `strftime('%Y-%m-%d')`; glibc does not pad the year. -/
def dateText (d : Date) : List Char := natText d.y ++ '-' :: two d.m ++ '-' :: two d.d

/-- `DateType.to_primitive` (`types/base.py:686-687`); `value.strftime` of anything else raises `AttributeError`. -/
def datePrimitive : Val → R Val
  | .date d => .ok (.str (String.ofList (dateText d)))
  | .datetime t => .ok (.str (String.ofList (dateText t.date)))
  | _ => .error (.other "AttributeError")

/-- `DateType(formats)` (`types/base.py:637-687`). -/
def dateType (formats : List (List Char → Option Date) := []) : Leaf where
  toNative _ v := dateNative formats v
  toPrimitive _ v := datePrimitive v

/-! ## DateTimeType -/

/-- `tzd` (`types/base.py:714-723`) -/
inductive Tzd
  | require
  | allow
  | utc
  | reject
  deriving DecidableEq, Repr

/-- Constructor arguments of `DateTimeType` (`types/base.py:791-804`).  `parse` is an external parser or a list of
`strptime` formats: any function, `none` = it raised. -/
structure DTCfg where
  tzd : Tzd := .allow
  convert : Bool := false
  drop : Bool := false
  parse : Option (Val → Option DateTime) := none

/-- Sign characters of an offset: `[+−-]`. -/
def isSign (c : Char) : Bool := c == '+' || c == '-' || c == '−'

/-- An optional colon. -/
def optColon : List Char → List Char
  | ':' :: r => r
  | r => r

/-- An offset of `h` hours and `m` minutes in seconds. -/
def offsetSecs (c : Char) (h m : Nat) : Int := (if c = '+' then 1 else -1) * ((h * 60 + m : Nat) : Int) * 60

/-- Minutes of the offset, to the end. -/
def tzMinutes (c : Char) (h : Nat) (r : List Char) : Option (Option Int) :=
  match takeDigits 2 0 r with
  | some (m, r) => if atEnd r then some (some (offsetSecs c h m)) else none
  | none => if atEnd r then some (some (offsetSecs c h 0)) else none

/-- Zone designator to the end of the text: nothing, `Z`, or `±hh[:][mm]`. -/
def parseTz : List Char → Option (Option Int)
  | [] => some none
  | ['\n'] => some none
  | 'Z' :: r => if atEnd r then some (some 0) else none
  | c :: r =>
    if isSign c then
      match takeDigits 2 0 r with
      | some (h, r) => tzMinutes c h (optColon r)
      | none => none
    else none

/-- Fraction of a second in microseconds: `[.,]\d{1,6}`, optional. -/
def parseFrac (cs : List Char) : Nat × List Char :=
  match cs with
  | c :: r =>
    if c = '.' ∨ c = ',' then
      (if (takeUpTo 6 0 0 r).2.1 = 0 then (0, c :: r)
       else ((takeUpTo 6 0 0 r).1 * 10 ^ (6 - (takeUpTo 6 0 0 r).2.1), (takeUpTo 6 0 0 r).2.2))
    else (0, c :: r)
  | [] => (0, [])

/-- Seconds and fraction: `(?::\d\d(?:[.,]\d{1,6})?)?`. -/
def parseSecs (cs : List Char) : Nat × Nat × List Char :=
  match cs with
  | ':' :: r =>
    match takeDigits 2 0 r with
    | some (s, r) => (s, (parseFrac r).1, (parseFrac r).2)
    | none => (0, 0, ':' :: r)
  | r => (0, 0, r)

/-- `T` or a space. -/
def eatT : List Char → Option (List Char)
  | 'T' :: r => some r
  | ' ' :: r => some r
  | _ => none

/-- The calendar part `YYYY-MM-DD`. -/
def isoDate (cs : List Char) : Option (Date × List Char) :=
  match takeDigits 4 0 cs with
  | some (y, r) =>
    match eat '-' r with
    | some r =>
      match takeDigits 2 0 r with
      | some (m, r) =>
        match eat '-' r with
        | some r =>
          match takeDigits 2 0 r with
          | some (d, r) => some (⟨y, m, d⟩, r)
          | none => none
        | none => none
      | none => none
    | none => none
  | none => none

/-- The clock part `hh:mm`. -/
def isoClock (cs : List Char) : Option (Nat × Nat × List Char) :=
  match takeDigits 2 0 cs with
  | some (h, r) =>
    match eat ':' r with
    | some r =>
      match takeDigits 2 0 r with
      | some (mi, r) => some (h, mi, r)
      | none => none
    | none => none
  | none => none

/-- A datetime if its parts are in range (`datetime.datetime(...)`). -/
def mkDateTime (t : DateTime) : Option DateTime := if DateTimeOk t then some t else none

/-- `DateTimeType.from_string` (`types/base.py:756-761`, `888-911`); the regular expression is deterministic. -/
def fromString (cs : List Char) : Option DateTime :=
  match isoDate cs with
  | some (date, r) =>
    match eatT r with
    | some r =>
      match isoClock r with
      | some (h, mi, r) =>
        match parseTz (parseSecs r).2.2 with
        | some tz => mkDateTime ⟨date, h, mi, (parseSecs r).1, (parseSecs r).2.1, tz⟩
        | none => none
      | none => none
    | none => none
  | none => none

/-- Result of constructing a `timedelta` or datetime from a float. -/
inductive TD (α : Type)
  | val (a : α)
  /-- `ValueError` (NaN) -/
  | bad
  /-- `OverflowError` -/
  | overflow
  deriving DecidableEq

/-- Largest `timedelta` in microseconds: less than 10^9 days. -/
def maxDelta : Int := 1000000000 * dayUs

/-- `trunc(x) * factor + fl(factor * frac(x))`, rounded half-even: microseconds of `timedelta(unit=x)` where a unit has
`factor` microseconds (CPython's `accum`). -/
def deltaUs (factor : Nat) (q : Rat) : Option Int :=
  match floatVal (ofRat (factor * (q - trunc q))) with
  | some g => some (rhe ((trunc q * factor : Int) * g.den + g.num) g.den)
  | none => none

/-- `datetime.timedelta(unit=x)` for a float `x`. -/
def deltaOfFloat (factor : Nat) : PyFloat → TD Int
  | .nan => .bad
  | .inf _ => .overflow
  | .fin n k =>
    match deltaUs factor (mkRat n (2 ^ k)) with
    | some us => if -maxDelta < us ∧ us < maxDelta then .val us else .overflow
    | none => .overflow

/-- Microseconds of the epoch 1970-01-01 since day 0. -/
def epochUs : Int := 719163 * dayUs

/-- A datetime at some instant, in UTC. -/
def utcAt (us : Int) : TD DateTime :=
  match ofUs us (some 0) with
  | some t => .val t
  | none => .overflow

/-- `DateTimeType.from_timestamp` (`types/base.py:913-917`). -/
def fromTimestamp (f : PyFloat) : TD DateTime :=
  match deltaOfFloat 1000000 f with
  | .val us => utcAt (epochUs + us)
  | .bad => .bad
  | .overflow => .overflow

/-- A timestamp, or `ConversionError`, or `OverflowError` escaping. -/
def TD.result : TD α → R α
  | .val t => .ok t
  | .bad => convErr "parse"
  | .overflow => .error (.other "OverflowError")

/-- The built-in parser (`types/base.py:860-871`): `float(value)` first, then ISO text. -/
def builtinParse (v : Val) : R DateTime :=
  match callFloat v with
  | .val (.flt f) => (fromTimestamp f).result
  | .overflow => .error (.other "OverflowError")
  | _ =>
    match v with
    | .str s =>
      match fromString s.toList with
      | some t => .ok t
      | none => convErr "parse"
    | .bytes _ => .error (.other "TypeError")
    | _ => convErr "parse"

/-- Parse a value that is no datetime (`types/base.py:844-871`). -/
def dtParse (c : DTCfg) (v : Val) : R DateTime :=
  match c.parse with
  | some f =>
    match f v with
    | some t => .ok t
    | none => convErr "parse"
  | none => builtinParse v

/-- `value.astimezone(UTC)`: an offset of a day or more raises `ValueError`, a result outside the calendar `OverflowError`. -/
def toUTC (t : DateTime) : R DateTime :=
  match t.tz with
  | none => .ok t
  | some o =>
    if o.natAbs < 86400 then
      match ofUs t.instant (some 0) with
      | some t => .ok t
      | none => .error (.other "OverflowError")
    else .error (.other "ValueError")

/-- `value.replace(tzinfo=None)` -/
def dropTz (b : Bool) (t : DateTime) : DateTime := if b then { t with tz := none } else t

/-- `astimezone` if `convert_tz`. -/
def convTz (b : Bool) (t : DateTime) : R DateTime := if b then toUTC t else .ok t

/-- A zoned value: refuse, convert, drop (`types/base.py:835-842`, `878-884`). -/
def zoned (c : DTCfg) (t : DateTime) : R DateTime :=
  if c.tzd = .reject then convErr "tzd_reject"
  else
    match convTz c.convert t with
    | .ok t => .ok (dropTz c.drop t)
    | .error e => .error e

/-- A naive datetime object (`types/base.py:829-834`). -/
def naiveObject (c : DTCfg) (t : DateTime) : R DateTime :=
  if c.drop then .ok t
  else if c.tzd = .require then convErr "tzd_require"
  else if c.tzd = .utc then .ok { t with tz := some 0 }
  else .ok t

/-- A naive parsed value (`types/base.py:873-877`). -/
def naiveParsed (c : DTCfg) (t : DateTime) : R DateTime :=
  if c.tzd = .require then convErr "parse_tzd_require"
  else if c.tzd = .utc ∧ c.drop = false then .ok { t with tz := some 0 }
  else .ok t

/-- A datetime object. -/
def convObject (c : DTCfg) (t : DateTime) : R DateTime := if t.tz.isNone then naiveObject c t else zoned c t
/-- A parsed datetime. -/
def convParsed (c : DTCfg) (t : DateTime) : R DateTime := if t.tz.isNone then naiveParsed c t else zoned c t

/-- Wrap a datetime result. -/
def toVal : R DateTime → R Val
  | .ok t => .ok (.datetime t)
  | .error e => .error e

/-- `DateTimeType.to_native` (`types/base.py:826-886`). -/
def dtNative (c : DTCfg) (v : Val) : R Val :=
  match v with
  | .datetime t => toVal (convObject c t)
  | v =>
    match dtParse c v with
    | .ok t => toVal (convParsed c t)
    | .error e => .error e

/-- `DateTimeType.validate_tz` (`types/base.py:924-938`). -/
def validateTz (c : DTCfg) : Validator := fun _ v =>
  match v with
  | .datetime t =>
    match t.tz with
    | none =>
      if c.drop then .ok ()
      else if c.tzd = .require then validErr "validate_tzd_require"
      else if c.tzd = .utc then validErr "validate_utc_none"
      else .ok ()
    | some o =>
      if c.drop then validErr "validate_tzd_reject"
      else if c.tzd = .reject then validErr "validate_tzd_reject"
      else if c.convert ∧ o ≠ 0 then validErr "validate_utc_wrong"
      else .ok ()
  | _ => .error (.other "AttributeError")

/-- Three pairs of digits: `%f`. -/
def six (n : Nat) : List Char := two (n / 10000) ++ two (n / 100 % 100) ++ two (n % 100)

/-- The `%z` of `strftime`: `''`, `±hhmm` or `±hhmmss`; raises for an offset of a day or more. -/
def tzText : Option Int → Option (List Char)
  | none => some []
  | some o =>
    if o.natAbs < 86400 then
      some ((if o < 0 then '-' else '+') :: (two (o.natAbs / 3600) ++ two (o.natAbs / 60 % 60) ++
        (if o.natAbs % 60 = 0 then [] else two (o.natAbs % 60))))
    else none

/-- `strftime('%Y-%m-%dT%H:%M:%S.%f')` -/
def localText (t : DateTime) : List Char :=
  dateText t.date ++ 'T' :: two t.h ++ ':' :: two t.mi ++ ':' :: two t.s ++ '.' :: six t.us

/-- `DateTimeType.to_primitive` with the default format `%Y-%m-%dT%H:%M:%S.%f%z` (`types/base.py:740`, `919-922`).
For a custom `serialized_format` see `dtPrimitiveF` (`Py/Strptime`). -/
def dtPrimitive : Val → R Val
  | .datetime t =>
    match tzText t.tz with
    | some z => .ok (.str (String.ofList (localText t ++ z)))
    | none => .error (.other "ValueError")
  | _ => .error (.other "AttributeError")

/-- `DateTimeType(...)`. -/
def dateTimeType (c : DTCfg) : Leaf where
  toNative _ v := dtNative c v
  toPrimitive _ v := dtPrimitive v
  validators := [validateTz c]

/-- The export of `UTCDateTimeType`: `%Y-%m-%dT%H:%M:%S.%fZ` (`types/base.py:949`). -/
def utcPrimitive : Val → R Val
  | .datetime t => .ok (.str (String.ofList (localText t ++ ['Z'])))
  | _ => .error (.other "AttributeError")

/-- `UTCDateTimeType()` with its defaults (`types/base.py:941-954`). -/
def utcCfg : DTCfg := { tzd := .utc, convert := true, drop := true }

/-- `UTCDateTimeType()` -/
def utcDateTimeType : Leaf where
  toNative _ v := dtNative utcCfg v
  toPrimitive _ v := utcPrimitive v
  validators := [validateTz utcCfg]

/-- The options of `TimestampType(drop_tzinfo)` (`types/base.py:966-969`). -/
def tsCfg (drop : Bool) : DTCfg := { tzd := .require, convert := true, drop := drop }

/-- Seconds since the epoch as a float: `timedelta.total_seconds()`. -/
def totalSeconds (us : Int) : PyFloat := ofRat ((us : Rat) / 1000000)

/-- `TimestampType.to_primitive` (`types/base.py:971-977`). -/
def tsPrimitive : Val → R Val
  | .datetime t =>
    match toUTC t with
    | .ok t => .ok (.flt (totalSeconds (t.localUs - epochUs)))
    | .error e => .error e
  | _ => .error (.other "AttributeError")

/-- `TimestampType(drop_tzinfo)` (`types/base.py:957-977`). -/
def timestampType (drop : Bool) : Leaf where
  toNative _ v := dtNative (tsCfg drop) v
  toPrimitive _ v := tsPrimitive v
  validators := [validateTz (tsCfg drop)]

/-! ## TimedeltaType -/

/-- `precision` (`types/base.py:992-998`) -/
inductive Unit'
  | days
  | seconds
  | microseconds
  | milliseconds
  | minutes
  | hours
  | weeks
  deriving DecidableEq, Repr

/-- Microseconds of a unit. -/
def Unit'.us : Unit' → Nat
  | .days => 86400000000
  | .seconds => 1000000
  | .microseconds => 1
  | .milliseconds => 1000
  | .minutes => 60000000
  | .hours => 3600000000
  | .weeks => 604800000000

/-- `TimedeltaType.to_native` (`types/base.py:1013-1019`). -/
def tdNative (u : Unit') : Val → R Val
  | .timedelta us => .ok (.timedelta us)
  | v =>
    match callFloat v with
    | .val (.flt f) =>
      match deltaOfFloat u.us f with
      | .val us => .ok (.timedelta us)
      | .bad => convErr "convert"
      | .overflow => .error (.other "OverflowError")
    | .overflow => .error (.other "OverflowError")
    | _ => convErr "convert"

/-- `x / y` on floats. -/
def divFloat (x y : PyFloat) : PyFloat :=
  match floatVal x, floatVal y with
  | some a, some b => ofRat (a / b)
  | _, _ => .nan

/-- `int(x)` on a float; infinities and NaN do not occur here. -/
def intOfFloat (x : PyFloat) : Int :=
  match floatVal x with
  | some a => trunc a
  | none => 0

/-- `TimedeltaType.to_primitive` (`types/base.py:1021-1023`): `int(value.total_seconds() / base_unit.total_seconds())`. -/
def tdPrimitive (u : Unit') : Val → R Val
  | .timedelta us => .ok (.int (intOfFloat (divFloat (totalSeconds us) (totalSeconds u.us))))
  | _ => .error (.other "AttributeError")

/-- `TimedeltaType(precision)` (`types/base.py:980-1023`). -/
def timedeltaType (u : Unit') : Leaf where
  toNative _ v := tdNative u v
  toPrimitive _ v := tdPrimitive u v

end Verif.Types
