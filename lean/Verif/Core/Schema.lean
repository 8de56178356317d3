import Verif.Py.Val

/-!
# Fields, schemas and contexts

Models `schematics/types/base.py` (`BaseType` options), `types/compound.py`
(constructor data), `types/serializable.py`, `schema.py`, and the options held by
the import `Context`.
-/
namespace Verif

/-- A field validator: `app_data → value → ok / exception`
(`types/base.py:323-329`; simplification 6). -/
abbrev Validator := Val → Val → R Unit

/-- A scalar (non-compound) type.  Built-in types are instances of this in
`Verif/Types`; custom user types are arbitrary inhabitants.
`toNative`/`toPrimitive` are `types/base.py:296-305`, `validators` are the
`validate_*` methods collected by `TypeMeta` (`types/base.py:112-117`) except
`validate_choices`, and `override` is an overridden `validate` method
(only `UnionType` does this, `types/union.py:87-89`); its first argument is
`context.convert`. -/
structure Leaf where
  toNative : Val → Val → R Val
  toPrimitive : Val → Val → R Val := fun _ v => .ok v
  validators : List Validator := []
  override : Option (Bool → Val → Val → R Val) := none

/-- Constructor arguments common to all types (`types/base.py:184-215`).
`serialize_when_none` is already folded into `exportLevel`
(`types/base.py:243-251`); an empty `serialized_name` counts as absent
(`serialized_name or field_name`, `transforms.py:121`). -/
structure FieldOpts where
  required : Bool := false
  default : Val := .undef
  serializedName : Option String := none
  choices : Option (List Val) := none
  validators : List Validator := []
  deserializeFrom : List String := []
  exportLevel : Option Nat := none

/-- `PolyModelType` arguments (`types/compound.py:342-357`). -/
structure PolySpec where
  classes : List String
  allowSub : Bool
  claim : Option (Val → Option String) := none

mutual
/-- The type of a field. -/
inductive FType
  /-- scalar types -/
  | leaf (l : Leaf)
  /-- `ListType(inner, min_size, max_size)` (`types/compound.py:185-196`). -/
  | list (inner : Field) (min max : Option Nat)
  /-- `DictType(inner, coerce_key)` (`types/compound.py:286-291`). -/
  | dict (inner : Field) (coerce : Key → R Key)
  /-- `ModelType(cls)` (`types/compound.py:110-125`). -/
  | model (cls : String)
  /-- `PolyModelType(spec)`. -/
  | poly (p : PolySpec)
/-- A type object with its options. -/
inductive Field
  | mk (ty : FType) (o : FieldOpts)
end

namespace Field
/-- the type -/
def ty : Field → FType | mk t _ => t
/-- the options -/
def o : Field → FieldOpts | mk _ o => o
@[simp] theorem ty_mk (t : FType) (o : FieldOpts) : (mk t o).ty = t := rfl
@[simp] theorem o_mk (t : FType) (o : FieldOpts) : (mk t o).o = o := rfl
end Field

instance : Inhabited Field := ⟨.mk (.model "") {}⟩

/-- `field.is_compound` (`types/base.py:212`, `types/compound.py:37`). -/
def FType.isCompound : FType → Bool
  | .leaf _ => false
  | _ => true

/-- Content of an instance or input mapping. -/
abbrev Data := Dict Key Val
/-- Error dict of a compound error. -/
abbrev Errs := Dict Key ErrTree

/-- A model-level validator `validate_<field>(self, data, value, context)`
(`validate.py:95`): gets the view of the mutable instance, the data, the value
and `app_data`; returns the (possibly changed) data or raises
(simplification 7). -/
abbrev ModelValidator := Data → Data → Val → Val → R Data

/-- One entry of `schema.fields`: a `BaseType` or a `Serializable`
(`types/serializable.py:70-104`) with getter and optional setter.  `fget = some g`
marks a `Serializable`; `g data = none` means the getter raised.  A setter
returns the field assignments it performs (simplification 7). -/
structure FieldDef where
  name : String
  field : Field
  fget : Option (Data → Option Val) := none
  fset : Option (Val → R Data) := none

/-- `field.serialized_name or field_name` (`transforms.py:121`, `266`, `validate.py:97`). -/
def FieldDef.extName (fd : FieldDef) : String :=
  match fd.field.o.serializedName with
  | some s => if s = "" then fd.name else s
  | none => fd.name

/-- How a role filters (`role.py:66-116`): `true` = skip the field. -/
abbrev RoleFn := String → Val → Bool

/-- A model class: its schema (`schema.py:13-30`), options (`schema.py:33-48`)
and the hooks used by polymorphic fields. -/
structure ClassDef where
  name : String
  fields : List FieldDef
  validators : Dict String ModelValidator := []
  roles : Dict String RoleFn := []
  exportLevel : Nat := 10
  claim : Option (Val → Bool) := none

/-- The class table: `cls` looks a class up by name, `isSub c d` is
`issubclass(c, d)`, `subs c` is `get_all_subclasses(c)` (`util.py:72-79`). -/
structure Env where
  cls : String → Option ClassDef
  isSub : String → String → Bool
  subs : String → List String

/-- `deserialize_mapping` (`models.py:211-213`, `transforms.py:93-108`): input
names per field, and the optional nested `'model_mapping'`. -/
inductive Mapping
  | mk (entries : List (String × List String)) (sub : Option (List (String × Mapping)))

namespace Mapping
/-- The empty mapping `{}`. -/
def empty : Mapping := mk [] none
/-- Entries other than `'model_mapping'`. -/
def entries : Mapping → List (String × List String) | mk e _ => e
/-- `mapping.get('model_mapping')`. -/
def sub : Mapping → Option (List (String × Mapping)) | mk _ s => s
end Mapping

/-- Which converter drives the loop: `import_converter` or
`validation_converter` (`transforms.py:378-391`). -/
inductive Conv
  | imp
  | val
  deriving DecidableEq, Repr

/-- Import context (`transforms.py:73-88`). -/
structure Ctx where
  conv : Conv := .imp
  trusted : Data := []
  mapping : Mapping := .empty
  partial_ : Bool := false
  strict : Bool := false
  init : Bool := false
  defaults : Bool := false
  convert : Bool := true
  validate : Bool := false
  oo : Bool := false
  recursive : Bool := false
  app : Val := .dict []

/-- `for key in instance: (key, instance[key])` (`models.py:329-340`, `383-387`):
the declared, non-settable fields that have a value, in field order; a
`Serializable` reads as its getter's value. A getter that raises is left out
(simplification). -/
def ClassDef.view (c : ClassDef) (d : Data) : Data :=
  c.fields.filterMap fun fd =>
    if fd.fset.isSome then none
    else match Dict.get? d fd.name with
      | none => none
      | some v =>
        match fd.fget with
        | none => some (.str fd.name, v)
        | some g => (g d).map fun w => (.str fd.name, w)

/-- `dict(instance)` for a nested instance value of class `cls`. -/
def Env.view (env : Env) (cls : String) (d : Data) : Data :=
  match env.cls cls with
  | some c => c.view d
  | none => d

end Verif
