import Verif.Lib.Meta

/-!
# The decorator `serializable` (`types/serializable.py:17-67`)

Type objects are those of `Lib/Meta`, with the attributes that the constructor sets from its arguments as their `spec`.

Simplifications: the constructor of a type class stores every argument under its own name, as `BaseType.__init__` (`types/base.py:184-214`) does for `required`,
`serialized_name`, `choices`, `metadata`; values that are normalised on the way (`deserialize_from`, `validators`, `messages`) are not distinguished from
their normal form.
-/
namespace Verif.Lib.Serializable

open Verif Verif.Lib.Meta

abbrev Attrs := Dict String Val
abbrev Heap := List (TypeObj Attrs)

/-- A type class: the parameters of its constructor, and the attributes of an instance created without arguments. -/
structure TypeCls where
  params : List String
  attrs : Attrs := []

/-- A value given as a type: an instance or a class. -/
inductive TypeArg
  | inst (i : Nat)
  | cls (c : TypeCls)

/-- The first argument. -/
inductive Arg
  /-- a function: `serializable` is used as a bare decorator, or called with a function -/
  | func
  | none
  | type (t : TypeArg)
  /-- anything else -/
  | other

/-- The keyword arguments: `type`, `export_level`, `serialize_when_none` (`none` is "not given" or `None`) and the others, in order. -/
structure Kwargs where
  type : Option TypeArg := Option.none
  exportLevel : Option Nat := Option.none
  serializeWhenNone : Option Bool := Option.none
  rest : Attrs := []

/-- What happens: a type object for the calculated field, or an exception; and the heap afterwards. -/
inductive Result
  | ok (obj : Nat)
  | typeError
  | attributeError

/-- `setattr(serialized_type, name, value)` for the remaining arguments (`types/serializable.py:54-55`); `default` is a property without a setter
(`types/base.py:281-286`). -/
def setAttrs (i : Nat) : Heap → Attrs → Result × Heap
  | h, [] => (.ok i, h)
  | h, (k, v) :: r =>
    if k = "default" then (.attributeError, h)
    else setAttrs i (h.modify i fun o => { o with spec := o.spec.set k v }) r

/-- `serialized_type(**kwargs)` (`types/serializable.py:57`). -/
def construct (h : Heap) (hint : Nat) (c : TypeCls) (kw : Kwargs) : Result × Heap :=
  if kw.rest.keys.all (fun k => decide (k ∈ c.params)) then
    (.ok h.length, h ++ [{ spec := c.attrs.update kw.rest, hint := hint, level := setLevel kw.exportLevel kw.serializeWhenNone }])
  else (.typeError, h)

/-- The type is known (`types/serializable.py:49-57`). -/
def withType (h : Heap) (hint : Nat) (kw : Kwargs) : TypeArg → Result × Heap
  | .inst i => setAttrs i (h.modify i fun o => { o with level := setLevel kw.exportLevel kw.serializeWhenNone }) kw.rest
  | .cls c => construct h hint c kw

/-- `serializable(arg, **kwargs)` (`types/serializable.py:17-62`); `base` is `BaseType`. A `type` argument together with a function or a type class is an
unknown argument of the constructor; together with a type instance it becomes an attribute of it that nothing reads. -/
def serializable (base : TypeCls) (h : Heap) (hint : Nat) (arg : Arg) (kw : Kwargs) : Result × Heap :=
  match arg with
  | .func =>
    match kw.type with
    | some _ => (.typeError, h)
    | Option.none => withType h hint kw (.cls base)
  | .none => withType h hint kw (kw.type.getD (.cls base))
  | .type (.cls c) =>
    match kw.type with
    | some _ => (.typeError, h)
    | Option.none => withType h hint kw (.cls c)
  | .type (.inst i) => withType h hint kw (.inst i)
  | .other => (.typeError, h)

end Verif.Lib.Serializable
