import Verif.Core.Instance
import Verif.Types.Mock

/-!
# Mock objects with their values: `Model.get_mock_object` and the constructor it ends with

`Lib/MockObject.lean` models the shape of mock objects; here the mocked values are the values of the engine, and the object is built by the
constructor of `Core/Instance.lean`.
-/
namespace Verif

/-- The random outcomes, each depending on where in the run it is drawn: whether an optional field is filled, which choice is picked, the
random numbers for the length of a list, and the outcome of `_mock` of a scalar type (`types/base.py:345-350`, `types/compound.py:205-208`);
`none` is `MockCreationError`. -/
structure Dice where
  fill : List Nat → Bool
  pick : List Nat → Nat
  tape : List Nat → Types.Mock.Tape
  leaf : List Nat → Leaf → Option Val

/-- `context.memo`: the classes visited. -/
abbrev Seen := List String

/-- The items of a mocked list, one after the other (`types/compound.py:208`). -/
def mockItems (f : Nat → Seen → R (Val × Seen)) : Nat → Seen → R (List Val × Seen)
  | 0, seen => .ok ([], seen)
  | n + 1, seen =>
    match f n seen with
    | .error e => .error e
    | .ok (x, seen) =>
      match mockItems f n seen with
      | .error e => .error e
      | .ok (xs, seen) => .ok (x :: xs, seen)

/-- The list made of them. -/
def mockedList : R (List Val × Seen) → R (Val × Seen)
  | .error e => .error e
  | .ok (xs, seen) => .ok (.list xs, seen)

mutual
/-- `_mock` of a type: of a scalar type, a list (`types/compound.py:205-208`), a model (`types/compound.py:130-131`, `rec` is
`get_mock_object`); `DictType` and `PolyModelType` have none of their own, so that it is `None` (`types/base.py:232-233`). -/
def FType.mockValue (rec : List Nat → String → Seen → R (Val × Seen)) (dice : Dice) : FType → List Nat → Seen → R (Val × Seen)
  | .leaf l, p, seen =>
    match dice.leaf p l with
    | some v => .ok (v, seen)
    | none => .error (.other "MockCreationError")
  | .list inner mn mx, p, seen =>
    match Types.Mock.listLength mx mn (dice.tape p) with
    | some n => mockedList (mockItems (fun i s => inner.mockValue rec dice (i :: p) s) n seen)
    | none => .error (.other "MockCreationError")
  | .dict _ _, _, seen => .ok (.none, seen)
  | .model k, p, seen => rec p k seen
  | .poly _, _, seen => .ok (.none, seen)
/-- `_mock` of a field: its options play no part. -/
def Field.mockValue (rec : List Nat → String → Seen → R (Val × Seen)) (dice : Dice) : Field → List Nat → Seen → R (Val × Seen)
  | .mk t _, p, seen => t.mockValue rec dice p seen
end

/-- `field.mock(context)` (`types/base.py:345-350`). -/
def Field.mock (rec : List Nat → String → Seen → R (Val × Seen)) (dice : Dice) (f : Field) (p : List Nat) (seen : Seen) : R (Val × Seen) :=
  if !f.o.required && !dice.fill p then .ok (f.o.default, seen)
  else
    match f.o.choices with
    | some cs =>
      match cs[dice.pick p % cs.length]? with
      | some v => .ok (v, seen)
      | none => .error (.other "IndexError")
    | none => f.mockValue rec dice p seen

mutual
/-- `field.model_class` (`types/compound.py:101-108`, `198-200`, `293-295`); `none` for `AttributeError`. -/
def FType.modelClass : FType → Option String
  | .leaf _ => none
  | .list inner _ _ => inner.modelClass
  | .dict inner _ => inner.modelClass
  | .model k => some k
  | .poly _ => none
/-- The same for a field. -/
def Field.modelClass : Field → Option String
  | .mk t _ => t.modelClass
end

/-- `getattr(field, 'model_class', None) in context.memo` (`models.py:374-375`). -/
def seenClass (seen : Seen) : Option String → Bool
  | some k => decide (k ∈ seen)
  | none => false

/-- `except MockCreationError as exc: raise MockCreationError('%s: %s' % (name, exc.message))` (`models.py:378-379`): exceptions have no
attribute `message` in Python 3, so this raises `AttributeError`.  Other exceptions pass. -/
def mockHandler : Exc → Exc
  | .other "MockCreationError" => .other "AttributeError"
  | e => e

/-- The loop of `get_mock_object` over the fields, from the `i`-th on (`models.py:371-379`). -/
def mockLoop (rec : List Nat → String → Seen → R (Val × Seen)) (dice : Dice) (over : Data) (p : List Nat) :
    Nat → List FieldDef → Seen → R (Data × Seen)
  | _, [], seen => .ok ([], seen)
  | i, fd :: fds, seen =>
    if over.has (.str fd.name) || seenClass seen fd.field.modelClass then mockLoop rec dice over p (i + 1) fds seen
    else
      match fd.field.mock rec dice (i :: p) seen with
      | .error e => .error (mockHandler e)
      | .ok (v, seen) =>
        match mockLoop rec dice over p (i + 1) fds seen with
        | .error e => .error e
        | .ok (vs, seen) => .ok ((.str fd.name, v) :: vs, seen)

/-- `context.memo.add(cls)` (`models.py:369`). -/
def seeClass (k : String) (seen : Seen) : Seen := if k ∈ seen then seen else k :: seen

/-- The values of `get_mock_object`, with the overrides (`models.py:366-380`). -/
def mockValues (rec : List Nat → String → Seen → R (Val × Seen)) (dice : Dice) (over : Data) (p : List Nat) (c : ClassDef) (seen : Seen) : R (Data × Seen) :=
  match mockLoop rec dice over p 0 c.fields seen with
  | .error e => .error e
  | .ok (vs, seen) => .ok (Dict.update vs over, seen)

/-- `cls(values)` at the end (`models.py:381`), for a nested object; `n` is the stack left for the conversion. -/
def mockBuild (env : Env) (n : Nat) (c : ClassDef) : R (Data × Seen) → R (Val × Seen)
  | .error e => .error e
  | .ok (vs, seen) =>
    match newInstance (fieldConv env n) env newCtx c vs with
    | .error e => .error e
    | .ok v => .ok (v, seen)

/-- `cls.get_mock_object(context)` for a nested object (`types/compound.py:130-131`, `models.py:360-381`); a class that does not exist is
`ImportError` as in `Core/Import.lean`. -/
def mockObject (env : Env) (dice : Dice) (n : Nat) : Nat → List Nat → String → Seen → R (Val × Seen)
  | 0, _, _, _ => .error .fuel
  | fuel + 1, p, k, seen =>
    match env.cls k with
    | none => .error (.other "ImportError")
    | some c => mockBuild env n c (mockValues (mockObject env dice n fuel) dice [] p c (seeClass k seen))

/-- `cls.get_mock_object(overrides=over)` (`models.py:360-381`). -/
def getMockObject (env : Env) (dice : Dice) (n fuel : Nat) (c : ClassDef) (over : Data) : R Inst :=
  match mockValues (mockObject env dice n fuel) dice over [] c [c.name] with
  | .error e => .error e
  | .ok (vs, _) => instInit env n c vs [] false newCtx

end Verif
