import Verif.Py.Dict

/-!
# Python values and exceptions

The value universe used by the transform engine.  Not part of `/repo` itself:
this is the modelled part of the Python runtime, plus `schematics.undefined`
and the exception classes of `schematics/exceptions.py`.
-/
namespace Verif

/-- Dictionary keys: `str` or `int` (simplification 3 in DESIGN.md). -/
inductive Key
  | str (s : String)
  | int (i : Int)
  deriving DecidableEq, Repr, Inhabited

instance : Coe String Key := ⟨Key.str⟩

/-- Python floats: exact dyadic rationals `num / 2^k`, infinities and NaN
(simplification 9: no rounding). -/
inductive PyFloat
  | fin (num : Int) (k : Nat)
  | inf (neg : Bool)
  | nan
  deriving DecidableEq, Repr, Inhabited

/-- `datetime.date` components (validity is a separate predicate). -/
structure Date where
  y : Nat
  m : Nat
  d : Nat
  deriving DecidableEq, Repr, Inhabited

/-- `datetime.datetime` components; `tz` is the fixed UTC offset in seconds,
`none` for a naive datetime.  Zones with daylight saving are not modelled. -/
structure DateTime where
  date : Date
  h : Nat
  mi : Nat
  s : Nat
  us : Nat
  tz : Option Int
  deriving DecidableEq, Repr, Inhabited

/-- The Gregorian leap-year rule (`calendar.isleap`). -/
def isLeap (y : Nat) : Bool := y % 4 == 0 && (y % 100 != 0 || y % 400 == 0)

/-- Days in month `m` (1-12) of year `y`; 0 for other months. -/
def daysInMonth (y m : Nat) : Nat :=
  match m with
  | 1 => 31 | 2 => if isLeap y then 29 else 28 | 3 => 31 | 4 => 30 | 5 => 31 | 6 => 30
  | 7 => 31 | 8 => 31 | 9 => 30 | 10 => 31 | 11 => 30 | 12 => 31
  | _ => 0

/-- Days in the months before month `m` of year `y`. -/
def daysBeforeMonth (y : Nat) : Nat → Nat
  | 0 => 0
  | m + 1 => daysBeforeMonth y m + daysInMonth y m

/-- Days before January 1st of year `y` (year 1 is the first). -/
def daysBeforeYear (y : Nat) : Nat := (y - 1) * 365 + (y - 1) / 4 - (y - 1) / 100 + (y - 1) / 400

/-- `date.toordinal()`: January 1st of year 1 is day 1. -/
def Date.ordinal (d : Date) : Nat := daysBeforeYear d.y + daysBeforeMonth d.y d.m + d.d

/-- Microseconds since the start of day 0, local time. -/
def DateTime.localUs (t : DateTime) : Int :=
  (((t.date.ordinal * 24 + t.h) * 60 + t.mi) * 60 + t.s : Nat) * 1000000 + t.us

/-- Microseconds since the start of day 0, UTC (local time if naive). -/
def DateTime.instant (t : DateTime) : Int := t.localUs - (t.tz.getD 0) * 1000000

/-- `decimal.Decimal`: finite `(-1)^neg * coeff * 10^exp`, infinity or NaN
(payloads of NaNs are not modelled). -/
inductive Dec
  | fin (neg : Bool) (coeff : Nat) (exp : Int)
  | inf (neg : Bool)
  | nan (neg : Bool)
  deriving DecidableEq, Repr, Inhabited

/-- Python values seen by schematics. -/
inductive Val
  /-- `schematics.undefined.Undefined` (`undefined.py:9-60`), a singleton. -/
  | undef
  | none
  | bool (b : Bool)
  | int (i : Int)
  | flt (f : PyFloat)
  | str (s : String)
  | bytes (bs : List Nat)
  | list (xs : List Val)
  | tuple (xs : List Val)
  | dict (kvs : List (Key × Val))
  /-- A `Model` instance: class name and the content of its data layers
  (flattened; see `Core/Instance.lean` for the layered top-level instance). -/
  | inst (cls : String) (data : List (Key × Val))
  | uuid (n : Nat)
  | date (d : Date)
  | datetime (dt : DateTime)
  /-- `datetime.timedelta` in microseconds. -/
  | timedelta (us : Int)
  | decimal (d : Dec)
  /-- An `enum.Enum` member. -/
  | enum (cls name : String) (value : Val)
  /-- Any other object: hashable, neither a mapping, an iterable nor a number. -/
  | obj (n : Nat)
  deriving Inhabited, Repr

namespace Val

/-- `value is None or value is Undefined` (tests of `transforms.py:381`, `389`,
`types/base.py:336`). -/
def isEmpty : Val → Bool
  | .none => true
  | .undef => true
  | _ => false

/-- `value is Undefined`. -/
def isUndef : Val → Bool
  | .undef => true
  | _ => false

/-- `isinstance(value, dict)`. -/
def isDict : Val → Bool
  | .dict _ => true
  | _ => false

theorem isUndef_iff (v : Val) : v.isUndef = true ↔ v = .undef := by
  cases v <;> simp [isUndef]

theorem isEmpty_iff (v : Val) : v.isEmpty = true ↔ v = .none ∨ v = .undef := by
  cases v <;> simp [isEmpty]

/-- Python truthiness (`bool(value)`) for the values of the model.  A `Model`
instance is true iff `len(instance) > 0` (`models.py:405-406`). -/
def truthy : Val → Bool
  | .undef => false
  | .none => false
  | .bool b => b
  | .int i => i != 0
  | .flt (.fin n _) => n != 0
  | .flt _ => true
  | .str s => s != ""
  | .bytes bs => !bs.isEmpty
  | .list xs => !xs.isEmpty
  | .tuple xs => !xs.isEmpty
  | .dict kvs => !kvs.isEmpty
  | .inst _ kvs => !kvs.isEmpty
  | .timedelta us => us != 0
  | .decimal (.fin _ c _) => c != 0
  | _ => true

/-- The exact rational value of a number. -/
def toRat? : Val → Option Rat
  | .bool b => some (if b then 1 else 0)
  | .int i => some i
  | .flt (.fin n k) => some (mkRat n (2 ^ k))
  | .decimal (.fin neg c e) =>
      let s : Int := if neg then -1 else 1
      if e ≥ 0 then some ((s * c * 10 ^ e.toNat : Int) : Rat)
      else some (mkRat (s * c) (10 ^ (-e).toNat))
  | _ => Option.none

/-- Is the value of a Python number type? -/
def isNumber : Val → Bool
  | .bool _ | .int _ | .flt _ | .decimal _ => true
  | _ => false

mutual
/-- Python `==` (used by `in choices`, enum lookup and `Model.__eq__`).  Numbers
compare by value across types, NaN equals nothing (the identity shortcut of containers is not modelled),
zoned datetimes compare by instant and are never equal to naive ones, dicts compare as maps,
model instances by `models.py:408-424` restricted to their stored keys. -/
def pyEq : Val → Val → Bool
  | .undef, .undef => true
  | .none, .none => true
  | .str a, .str b => a == b
  | .bytes a, .bytes b => a == b
  | .list a, .list b => pyEqList a b
  | .tuple a, .tuple b => pyEqList a b
  | .dict a, .dict b => a.length == b.length && pyEqDict a b
  | .inst c a, .inst c' b => c == c' && pyEqInst a b
  | .uuid a, .uuid b => a == b
  | .date a, .date b => a == b
  | .datetime a, .datetime b => a.tz.isSome == b.tz.isSome && a.instant == b.instant
  | .timedelta a, .timedelta b => a == b
  | .enum c n _, .enum c' n' _ => c == c' && n == n'
  | .obj a, .obj b => a == b
  | .flt (.inf a), .flt (.inf b) => a == b
  | .flt (.inf a), .decimal (.inf b) => a == b
  | .decimal (.inf a), .flt (.inf b) => a == b
  | .decimal (.inf a), .decimal (.inf b) => a == b
  | a, b =>
    match toRat? a, toRat? b with
    | some x, some y => x == y
    | _, _ => false
  termination_by structural x => x
/-- Element-wise comparison of sequences. -/
def pyEqList : List Val → List Val → Bool
  | [], [] => true
  | x :: xs, y :: ys => pyEq x y && pyEqList xs ys
  | _, _ => false
  termination_by structural x => x
/-- Every entry of the first dict has an equal entry in the second. -/
def pyEqDict : List (Key × Val) → List (Key × Val) → Bool
  | [], _ => true
  | (k, x) :: xs, ys =>
    (match Dict.get? ys k with
      | some y => pyEq x y
      | Option.none => false) && pyEqDict xs ys
  termination_by structural x => x
/-- `self.get(k) != other.get(k)` for all `k` in `self`; a missing key reads `None`. -/
def pyEqInst : List (Key × Val) → List (Key × Val) → Bool
  | [], _ => true
  | (k, x) :: xs, ys =>
    (match Dict.get? ys k with
      | some y => pyEq x y
      | Option.none => pyEq x .none) && pyEqInst xs ys
  termination_by structural x => x
end

/-- `value in choices` for a list of choices (`types/base.py:342`). -/
def pyIn (v : Val) (xs : List Val) : Bool := xs.any (fun x => pyEq v x)

end Val

/-- Error messages are tags, not sentences (simplification 5). -/
abbrev Msg := String

/-- The `FieldError` classes (`exceptions.py:200-212`). -/
inductive FKind
  | conv
  | valid
  | stop
  deriving DecidableEq, Repr, Inhabited

/-- Nested error structures held by a `CompoundError` (`exceptions.py:215-225`):
each value is a `FieldError`, the string `'Rogue field'` (`transforms.py:114`),
the bare message list of a model-level validator (`validate.py:98`), or (for a
nested compound error, flattened by `exceptions.py:221-222`) a dict. -/
inductive ErrTree
  | leaf (k : FKind) (msgs : List Msg)
  | rogue
  | msgs (msgs : List Msg)
  | node (es : List (Key × ErrTree))
  deriving Inhabited, Repr

/-- Exceptions as values. -/
inductive Exc
  /-- `ConversionError`, `ValidationError`, `StopValidationError`. -/
  | field (k : FKind) (msgs : List Msg)
  /-- `CompoundError` raised by list/dict fields. -/
  | compound (es : List (Key × ErrTree))
  /-- `DataError` with its `partial_data`. -/
  | data (es : List (Key × ErrTree)) (part : List (Key × Val))
  /-- Any exception that is not a schematics `BaseError`. -/
  | other (name : String)
  /-- `RecursionError`: the model ran out of fuel. -/
  | fuel
  deriving Inhabited, Repr

namespace Exc

/-- Is the exception caught by `except (FieldError, CompoundError)`
(`transforms.py:154`, `193`) resp. `except BaseError` (`types/compound.py:228`, `309`)? -/
def caught : Exc → Bool
  | .field .. => true
  | .compound .. => true
  | .data .. => true
  | .other .. => false
  | .fuel => false

/-- The value a caught exception contributes to the error dict of the enclosing
compound error (`exceptions.py:220-224`: nested compound errors are replaced by
their error dict). -/
def tree : Exc → ErrTree
  | .field k m => .leaf k m
  | .compound es => .node es
  | .data es _ => .node es
  | .other _ => .rogue   -- unreachable: never caught
  | .fuel => .rogue      -- unreachable: never caught

end Exc

/-- Result of a Python computation. -/
abbrev R (α : Type) := Except Exc α

/-- `ConversionError(msg)`. -/
def convErr {α : Type} (m : Msg) : R α := .error (.field .conv [m])
/-- `ValidationError(msg)`. -/
def validErr {α : Type} (m : Msg) : R α := .error (.field .valid [m])

end Verif
