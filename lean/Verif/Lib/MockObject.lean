import Verif.Py.Dict
import Mathlib.Tactic.Common
import Mathlib.Data.List.Basic

/-!
# Mock objects of models: `Model.get_mock_object` (`models.py:360-381`)

Only the shape of the mock object is modelled: which fields get a value, and which nested mock objects are created.  The values of the
non-model fields are those of `Types/Mock.lean`.
-/
namespace Verif.Lib.MockObject

/-- The type of a field as far as mocking is concerned. -/
inductive Ty
  /-- any type without a model class; whether its bounds leave room for a mock value (`types/base.py:52-70`) -/
  | leaf (ok : Bool := true)
  /-- `ModelType` of a class -/
  | model (c : Nat)
  /-- `ListType`; whether its bounds leave room for a length -/
  | list (t : Ty) (ok : Bool := true)
  /-- `DictType`, which has no `_mock` of its own -/
  | dict (t : Ty)
deriving DecidableEq

/-- `field.model_class` (`types/compound.py:101-108`, `198-200`, `293-295`); `none` for `AttributeError`. -/
def Ty.modelClass : Ty → Option Nat
  | .leaf _ => none
  | .model c => some c
  | .list t _ => t.modelClass
  | .dict t => t.modelClass

/-- A field: its name, its type, whether it is required. -/
structure Fld where
  name : String
  ty : Ty
  required : Bool := false

/-- All classes: the fields of each. -/
abbrev Classes := Nat → List Fld

/-- A mocked value. -/
inductive MVal
  /-- a value of a simple type -/
  | simple
  /-- the default of the field (`types/base.py:346-347`) -/
  | dflt
  /-- `None`: `BaseType._mock` (`types/base.py:232-233`) of a `DictType` -/
  | none
  /-- a model instance with the values of the fields that were mocked -/
  | obj (c : Nat) (fields : List (String × MVal))
  /-- a list -/
  | list (xs : List MVal)
  /-- a value given by the caller -/
  | given (n : Nat)

/-- The classes that were visited: `context.memo`. -/
abbrev Memo := List Nat

/-- The random outcomes: whether an optional field is filled, and the length of a list, both depending on where we are. -/
structure Rnd where
  fill : List Nat → Bool
  length : List Nat → Nat

/-- Exceptions: `MockCreationError`, raised by a field whose bounds leave no room (`types/base.py:62-68`), and `AttributeError`. -/
inductive MErr
  | mock
  | attribute
deriving DecidableEq

/-- The outcome of a call: no outcome within the fuel, an exception, a result. -/
inductive Out (α : Type)
  | fuel
  | raise (e : MErr)
  | ok (a : α)

/-- The items of a list, one after the other. -/
def mockItems (f : Nat → Memo → Out (MVal × Memo)) : Nat → Memo → Out (List MVal × Memo)
  | 0, memo => .ok ([], memo)
  | n + 1, memo =>
    match f n memo with
    | .fuel => .fuel
    | .raise e => .raise e
    | .ok (x, memo) =>
      match mockItems f n memo with
      | .fuel => .fuel
      | .raise e => .raise e
      | .ok (xs, memo) => .ok (x :: xs, memo)

/-- The `rec`-parameterised `_mock` of a type (`types/compound.py:130-131`, `205-208`): `rec` is `get_mock_object`. -/
def mockTy (rec : List Nat → Nat → Memo → Out (MVal × Memo)) (rnd : Rnd) : List Nat → Ty → Memo → Out (MVal × Memo)
  | _, .leaf true, memo => .ok (.simple, memo)
  | _, .leaf false, _ => .raise .mock
  | p, .model c, memo => rec p c memo
  | p, .list t true, memo =>
    match mockItems (fun i m => mockTy rec rnd (i :: p) t m) (rnd.length p) memo with
    | .fuel => .fuel
    | .raise e => .raise e
    | .ok (xs, memo) => .ok (.list xs, memo)
  | _, .list _ false, _ => .raise .mock
  | _, .dict _, memo => .ok (.none, memo)

/-- Whether the model class of a field was visited (`models.py:374-375`). -/
def visited (memo : Memo) : Option Nat → Bool
  | some c => decide (c ∈ memo)
  | none => false

/-- `except MockCreationError as exc: raise MockCreationError('%s: %s' % (name, exc.message))` (`models.py:378-379`): exceptions have no attribute `message`
in Python 3, so this raises `AttributeError`.  Other exceptions pass. -/
def handler : MErr → MErr
  | .mock => .attribute
  | e => e

/-- `field.mock(context)` (`types/base.py:345-350`); `choices` give a simple value and are part of `leaf`. -/
def mockField (rec : List Nat → Nat → Memo → Out (MVal × Memo)) (rnd : Rnd) (p : List Nat) (f : Fld) (memo : Memo) : Out (MVal × Memo) :=
  if !f.required && !rnd.fill p then .ok (.dflt, memo) else mockTy rec rnd p f.ty memo

/-- The loop of `get_mock_object` over the fields (`models.py:371-379`): a field that is overridden, or whose model class was visited, is skipped. -/
def mockFields (rec : List Nat → Nat → Memo → Out (MVal × Memo)) (rnd : Rnd) (over : String → Bool) (p : List Nat) :
    Nat → List Fld → Memo → Out (List (String × MVal) × Memo)
  | _, [], memo => .ok ([], memo)
  | i, f :: r, memo =>
    if over f.name || visited memo f.ty.modelClass then mockFields rec rnd over p (i + 1) r memo
    else
      match mockField rec rnd (i :: p) f memo with
      | .fuel => .fuel
      | .raise e => .raise (handler e)
      | .ok (v, memo) =>
        match mockFields rec rnd over p (i + 1) r memo with
        | .fuel => .fuel
        | .raise e => .raise e
        | .ok (vs, memo) => .ok ((f.name, v) :: vs, memo)

/-- `context.memo.add(cls)` (`models.py:369`). -/
def visit (c : Nat) (memo : Memo) : Memo := if c ∈ memo then memo else c :: memo

/-- `cls.get_mock_object(context)` (`models.py:360-381`) without overrides: the class is added to the memo, which is shared by all nested calls and never shrinks. -/
def mockObject (cls : Classes) (rnd : Rnd) : Nat → List Nat → Nat → Memo → Out (MVal × Memo)
  | 0, _, _, _ => .fuel
  | fuel + 1, p, c, memo =>
    match mockFields (mockObject cls rnd fuel) rnd (fun _ => false) p 0 (cls c) (visit c memo) with
    | .fuel => .fuel
    | .raise e => .raise e
    | .ok (vs, memo) => .ok (.obj c vs, memo)

/-- `cls.get_mock_object(context, overrides)` (`models.py:360-381`): the values given to the constructor.  (The constructor then converts them and raises
`DataError` for names that are no fields, see `Core/Import.lean`; not modelled here.) -/
def mockWith (cls : Classes) (rnd : Rnd) (fuel : Nat) (c : Nat) (memo : Memo) (overrides : List (String × MVal)) : Out (List (String × MVal) × Memo) :=
  match mockFields (mockObject cls rnd fuel) rnd (fun n => Dict.has overrides n) [] 0 (cls c) (visit c memo) with
  | .fuel => .fuel
  | .raise e => .raise e
  | .ok (vs, memo) => .ok (Dict.update vs overrides, memo)

end Verif.Lib.MockObject
