import Verif.Py.Float

/-!
# Python numbers: text forms, conversions, comparison

Part of the modelled Python runtime: `float(str)`, `decimal.Decimal(str)`, `str(Decimal)`, `int(float)`, numeric order.
-/
namespace Verif.Py

/-- Decimal digits at the start of a text. -/
def spanDigits : List Char → List Nat × List Char
  | [] => ([], [])
  | c :: cs =>
    match digitVal c with
    | some d => (d :: (spanDigits cs).1, (spanDigits cs).2)
    | none => ([], c :: cs)

/-- Digits after a decimal point. -/
def fracPart : List Char → List Nat × List Char
  | '.' :: r => spanDigits r
  | r => ([], r)

/-- Exponent digits, to the end of the text. -/
def expDigits (neg : Bool) (cs : List Char) : Option Int :=
  if (spanDigits cs).1 = [] then none
  else if (spanDigits cs).2 = [] then some (applySign neg (ofDigits 10 0 (spanDigits cs).1)) else none

/-- Optional exponent `e[+-]ddd`. -/
def expPart : List Char → Option Int
  | [] => some 0
  | 'e' :: r => expDigits (sign r).1 (sign r).2
  | 'E' :: r => expDigits (sign r).1 (sign r).2
  | _ => none

/-- Unsigned number `ddd[.ddd][e±ddd]` or `.ddd[e±ddd]` as coefficient and power of ten. -/
def parseNum (cs : List Char) : Option (Nat × Int) :=
  let i := spanDigits cs
  let f := fracPart i.2
  if i.1 = [] ∧ f.1 = [] then none
  else (expPart f.2).map fun e => (ofDigits 10 0 (i.1 ++ f.1), e - f.1.length)

/-- Lower-case an ASCII text. -/
def lower (cs : List Char) : List Char := cs.map Char.toLower

/-- The words for infinity and NaN. -/
def infWords : List (List Char) := ["inf".toList, "infinity".toList]

/-- Underscores must stand between digits (`_Py_string_to_number_with_underscores`); they are dropped. -/
def dropUnderscores : Bool → List Char → Option (List Char)
  | _, [] => some []
  | prev, '_' :: c :: cs =>
    if prev && (digitVal c).isSome then (dropUnderscores true cs).map (c :: ·) else none
  | _, '_' :: [] => none
  | _, c :: cs => (dropUnderscores (digitVal c).isSome cs).map (c :: ·)

/-- `m * 10 ^ e`. -/
def scale10 (m : Int) (e : Int) : Rat := if 0 ≤ e then ((m * 10 ^ e.toNat : Int) : Rat) else mkRat m (10 ^ (-e).toNat)

/-- `-x`. -/
def negFloat (neg : Bool) : PyFloat → PyFloat
  | .fin n k => .fin (if neg then -n else n) k
  | .inf b => .inf (if neg then !b else b)
  | .nan => .nan

/-- An unsigned float text. -/
def parseFloatAbs (cs : List Char) : Option PyFloat :=
  if lower cs ∈ infWords then some (.inf false)
  else if lower cs = "nan".toList then some .nan
  else (parseNum cs).map fun p => ofRat (scale10 p.1 p.2)

/-- `float(s)`; `none` is `ValueError`. -/
def parseFloat (cs : List Char) : Option PyFloat :=
  match dropUnderscores false (strip cs) with
  | some cs => (parseFloatAbs (sign cs).2).map (negFloat (sign cs).1)
  | none => none

/-- `str.isspace`. -/
def isSpaceU (c : Char) : Bool := isSpace c || decide (0x1c ≤ c.toNat ∧ c.toNat ≤ 0x1f)

/-- Drop blanks at both ends (`str.strip`). -/
def stripU (cs : List Char) : List Char := (cs.dropWhile isSpaceU).reverse.dropWhile isSpaceU |>.reverse

/-- A NaN with an optional payload. -/
def isNanText (cs : List Char) : Bool :=
  ("nan".toList.isPrefixOf (lower cs) && (digitsOf (cs.drop 3)).isSome) ||
  ("snan".toList.isPrefixOf (lower cs) && (digitsOf (cs.drop 4)).isSome)

/-- Unsigned decimal text. -/
def parseDecAbs (neg : Bool) (cs : List Char) : Option Dec :=
  if lower cs ∈ infWords then some (.inf neg)
  else if isNanText cs then some (.nan neg)
  else (parseNum cs).map fun p => .fin neg p.1 p.2

/-- `decimal.Decimal(s)`; `none` is `InvalidOperation`.  Underscores are dropped anywhere; limits on the exponent and
NaN payloads are not modelled. -/
def parseDec (cs : List Char) : Option Dec :=
  let t := (stripU cs).filter (· ≠ '_')
  parseDecAbs (sign t).1 (sign t).2

/-! ## `str(Decimal)` -/

/-- `'%+d' % e`. -/
def signedText (e : Int) : List Char := if 0 ≤ e then '+' :: natText e.toNat else '-' :: natText (-e).toNat

/-- Digits with a decimal point after `place` digits (`decimal.py`, `Decimal.__str__`). -/
def pointText (ds : List Char) (place : Int) : List Char :=
  if place ≤ 0 then '0' :: '.' :: (List.replicate (-place).toNat '0' ++ ds)
  else if ds.length ≤ place then ds ++ List.replicate (place.toNat - ds.length) '0'
  else ds.take place.toNat ++ '.' :: ds.drop place.toNat

/-- `str` of a finite, non-negative decimal. -/
def decAbsText (c : Nat) (e : Int) : List Char :=
  let left := e + (natText c).length
  if e ≤ 0 ∧ -6 < left then pointText (natText c) left
  else pointText (natText c) 1 ++ (if left = 1 then [] else 'E' :: signedText (left - 1))

/-- `str(d)` (NaN payloads and signalling NaNs are not modelled). -/
def decText : Dec → List Char
  | .fin neg c e => (if neg then ['-'] else []) ++ decAbsText c e
  | .inf neg => (if neg then ['-'] else []) ++ "Infinity".toList
  | .nan neg => (if neg then ['-'] else []) ++ "NaN".toList

/-! ## Bytes as text -/

/-- ASCII text of bytes; other bytes can never be part of a number. -/
def bytesText (bs : List Nat) : List Char := bs.map fun b => if b < 128 then Char.ofNat b else '?'

/-! ## Truncation and comparison -/

/-- `int(x)` for a finite rational: truncation toward zero. -/
def trunc (q : Rat) : Int := q.num.tdiv q.den

/-- A number as seen by comparison. -/
inductive Num
  | fin (q : Rat)
  | inf (neg : Bool)
  | nan
  deriving DecidableEq

/-- The number denoted by a value. -/
def numOf (v : Val) : Option Num :=
  match v with
  | .flt (.inf b) => some (.inf b)
  | .flt .nan => some .nan
  | .decimal (.inf b) => some (.inf b)
  | .decimal (.nan _) => some .nan
  | v => v.toRat?.map .fin

/-- `x < y`. -/
def Num.lt : Num → Num → Bool
  | .fin a, .fin b => decide (a < b)
  | .fin _, .inf neg => !neg
  | .inf neg, .fin _ => neg
  | .inf a, .inf b => a && !b
  | _, _ => false

/-- Is the value a `Decimal`? -/
def isDec : Val → Bool
  | .decimal _ => true
  | _ => false

/-- Python `x < y` on numbers: comparing a `Decimal` with NaN raises `InvalidOperation`, comparing with something that
is no number raises `TypeError`. -/
def pyLt (x y : Val) : R Bool :=
  match numOf x, numOf y with
  | some a, some b =>
    if (isDec x || isDec y) && (a == .nan || b == .nan) then .error (.other "InvalidOperation") else .ok (a.lt b)
  | _, _ => .error (.other "TypeError")

end Verif.Py
