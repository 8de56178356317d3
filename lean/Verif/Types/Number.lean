import Mathlib.Order.WithBot
import Verif.Py.Number
import Verif.Core.Schema

/-!
# `NumberType`, `IntType`, `FloatType`, `DecimalType` (`types/base.py:440-557`)
-/
namespace Verif.Types
open Verif.Py

/-- `native_type` of a `NumberType`. -/
inductive NumTy
  | int
  | float
  deriving DecidableEq

/-- Result of calling `int(value)` or `float(value)`. -/
inductive Call
  | val (v : Val)
  /-- `TypeError` or `ValueError` -/
  | bad
  /-- `OverflowError` -/
  | overflow

/-- A parsed number or `ValueError`. -/
def Call.ofOpt (f : α → Val) : Option α → Call
  | some a => .val (f a)
  | none => .bad

/-- `int(value)` (the Python builtin). -/
def callInt : Val → Call
  | .str s => .ofOpt .int (parseInt s.toList)
  | .bytes bs => .ofOpt .int (parseInt (bytesText bs))
  | .flt (.inf _) => .overflow
  | .decimal (.inf _) => .overflow
  | .uuid n => .val (.int n)
  | v => .ofOpt (fun q => .int (trunc q)) v.toRat?

/-- `float(x)` of an exact number: too large an int overflows, a too large decimal is infinite. -/
def floatOfInt (i : Int) : Call :=
  match ofRat i with
  | .inf _ => .overflow
  | f => .val (.flt f)

/-- `float(value)` (the Python builtin). -/
def callFloat : Val → Call
  | .str s => .ofOpt .flt (parseFloat s.toList)
  | .bytes bs => .ofOpt .flt (parseFloat (bytesText bs))
  | .int i => floatOfInt i
  | .bool b => floatOfInt (if b then 1 else 0)
  | .flt f => .val (.flt f)
  | .decimal (.inf b) => .val (.flt (.inf b))
  | .decimal (.nan _) => .val (.flt .nan)
  | v => .ofOpt (fun q => .flt (ofRat q)) v.toRat?

/-- `native_type(value)` -/
def NumTy.call : NumTy → Val → Call
  | .int => callInt
  | .float => callFloat

/-- `isinstance(value, native_type)` -/
def NumTy.isNative : NumTy → Val → Bool
  | .int, .int _ => true
  | .int, .bool _ => true
  | .float, .flt _ => true
  | _, _ => false

/-- `isinstance(value, (str, numbers.Integral))` -/
def isTextOrInt : Val → Bool
  | .str _ => true
  | .int _ => true
  | .bool _ => true
  | _ => false

/-- `if isinstance(value, bool): value = int(value)` (`types/base.py:471-472`) -/
def unBool : Val → Val
  | .bool b => .int (if b then 1 else 0)
  | v => v

/-- What happens with the result of `native_type(value)` (`types/base.py:475-488`). -/
def accept (ty : NumTy) (strict : Bool) (v : Val) : Call → R Val
  | .overflow => .error (.other "OverflowError")
  | .bad => convErr "number_coerce"
  | .val w =>
    if ty = .float then .ok w
    else if !strict && w.pyEq v then .ok w
    else if isTextOrInt v then .ok w
    else convErr "number_coerce"

/-- `NumberType.to_native` (`types/base.py:470-488`). -/
def numberNative (ty : NumTy) (strict : Bool) (v : Val) : R Val :=
  if ty.isNative (unBool v) then .ok (unBool v) else accept ty strict (unBool v) (ty.call (unBool v))

/-- One comparison of `validate_range`. -/
def bound (msg : Msg) (r : R Bool) : R Unit :=
  match r with
  | .error e => .error e
  | .ok true => validErr msg
  | .ok false => .ok ()

/-- `value < self.min_value` if there is a minimum. -/
def minCheck (min : Option Val) (v : Val) : R Unit :=
  match min with
  | some m => bound "number_min" (pyLt v m)
  | none => .ok ()

/-- `value > self.max_value` if there is a maximum. -/
def maxCheck (max : Option Val) (v : Val) : R Unit :=
  match max with
  | some m => bound "number_max" (pyLt m v)
  | none => .ok ()

/-- `NumberType.validate_range` (`types/base.py:490-499`). -/
def validateRange (min max : Option Val) : Validator := fun _ v =>
  match minCheck min v with
  | .error e => .error e
  | .ok () => maxCheck max v

/-- `IntType(min_value, max_value, strict)` (`types/base.py:502-513`). -/
def intType (min max : Option Val := none) (strict : Bool := false) : Leaf where
  toNative _ v := numberNative .int strict v
  validators := [validateRange min max]

/-- `FloatType` (`types/base.py:519-530`). -/
def floatType (min max : Option Val := none) (strict : Bool := false) : Leaf where
  toNative _ v := numberNative .float strict v
  validators := [validateRange min max]

/-- `decimal.Decimal(text)` or `ConversionError`. -/
def decimalOfText (cs : List Char) : R Val :=
  match parseDec cs with
  | some d => .ok (.decimal d)
  | none => convErr "number_coerce"

/-- `DecimalType.to_native` (`types/base.py:545-557`); `str` is Python's `str()` on values that are neither text nor
bool nor int nor `Decimal` (e.g. `repr` of a float): any function. -/
def decimalNative (str : Val → String) : Val → R Val
  | .decimal d => .ok (.decimal d)
  | .bool b => .ok (.decimal (.fin false (if b then 1 else 0) 0))
  | .str s => decimalOfText s.toList
  | .int i => decimalOfText (intText i)
  | v => decimalOfText (str v).toList

/-- `DecimalType.to_primitive`: `str(value)` (`types/base.py:542-543`). -/
def decimalPrimitive (str : Val → String) : Val → R Val
  | .decimal d => .ok (.str (String.ofList (decText d)))
  | .str s => .ok (.str s)
  | .int i => .ok (.str (String.ofList (intText i)))
  | v => .ok (.str (str v))

/-- `DecimalType` (`types/base.py:533-557`). -/
def decimalType (str : Val → String) (min max : Option Val := none) : Leaf where
  toNative _ v := decimalNative str v
  toPrimitive _ v := decimalPrimitive str v
  validators := [validateRange min max]

end Verif.Types
