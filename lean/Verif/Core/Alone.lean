import Verif.Core.Export

/-!
# Fields used on their own

`field.convert(value)`, `field.validate(value)`, `field.to_primitive(value)` and `field.export(value, format)` without a context: the contexts which the methods make for themselves
(`transforms.py:398-421`, `validate.py:107-117`) lack most options; the first nested `import_loop` or `export_loop` adds those that are missing (`transforms.py:69-88`, `232-245`).
Values that are `None` are not modelled here (`convert` passes them to the type's own method).  A context without `app_data` is shown to types and validators as one with `{}`.
-/
namespace Verif

/-- The context of `field.convert(value)` (`transforms.py:398-410`) once a nested `import_loop` called by `Model.convert` (`deprecated.py:109-111`) has completed it: `oo` is already there and stays `False`. -/
def aloneCtx : Ctx := {}

/-- The same, completed by the constructor of a model (`models.py:221-238`, `281-299`), which asks for defaults and initial values. -/
def alonePolyCtx : Ctx := { init := true, defaults := true }

/-- The context of `field.validate(value)` (`validate.py:107-117`), completed by the constructor of a model: `oo` is not among its options and becomes `True`. -/
def aloneValCtx : Ctx := { conv := .val, validate := true, init := true, defaults := true, oo := true }

/-- `ModelType._convert` (`types/compound.py:150-162`) in the context of `field.validate(value)`: this has no option `oo`. -/
def aloneModelVal (env : Env) (cls : String) : Val → R Val
  | .inst c' _ => if env.isSub c' cls then .error (.other "AttributeError") else convErr "model"
  | .dict _ => .error (.other "AttributeError")
  | _ => convErr "model"

/-- `field.convert` (`types/base.py:290-291`, `types/compound.py:49-51`) in a context of its own; `rec` is the field converter of the context, `recM` that of nested models, `val` tells whether the context is that of `field.validate`. -/
def aloneConvertF (rec : Field → Val → R Val) (recM : Rec) (env : Env) (val : Bool) (f : Field) (v : Val) : R Val :=
  match f.ty with
  | .leaf l => l.toNative (.dict []) v
  | .list inner _ _ =>
    match coerceList env v with
    | none => convErr "list"
    | some xs => listConv (rec inner) xs
  | .dict inner coerce =>
    match v with
    | .dict kvs => dictConv (rec inner) coerce kvs
    | _ => convErr "dict"
  | .model cls => if val then aloneModelVal env cls v else modelConv recM env aloneCtx cls v
  | .poly p => polyConv recM env (if val then aloneValCtx else alonePolyCtx) p v

/-- `field.convert(value)` or `field.validate(value)` (`types/base.py:307-333`). -/
def aloneF (rec : Field → Val → R Val) (recM : Rec) (env : Env) (val : Bool) (f : Field) (v : Val) : R Val :=
  if val then
    match f.ty.override with
    | some g => g true (.dict []) v
    | none =>
      match aloneConvertF rec recM env true f v with
      | .error e => .error e
      | .ok w => finishValidation (.dict []) w f.allValidators
  else aloneConvertF rec recM env false f v

/-- The field converters (`transforms.py:378-391`) on the items of lists and dicts: these have no name, so `required` always counts (`types/base.py:335-338`). -/
def aloneItem (env : Env) (val : Bool) : Nat → Field → Val → R Val
  | 0 => fun _ _ => .error .fuel
  | n + 1 => fun f v =>
    if f.o.required && v.isEmpty then convErr "required"
    else if v.isEmpty then .ok v
    else aloneF (aloneItem env val n) (fieldConv env n) env val f v

/-- `field.convert(value)` (`types/base.py:290-291`, `types/compound.py:49-51`). -/
def fieldConvert (env : Env) (n : Nat) (f : Field) (v : Val) : R Val := aloneF (aloneItem env false n) (fieldConv env n) env false f v

/-- `field.validate(value)` (`types/base.py:307-333`). -/
def fieldValidate (env : Env) (n : Nat) (f : Field) (v : Val) : R Val := aloneF (aloneItem env true n) (fieldConv env n) env true f v

/-- `field.export(value, format)` of a compound field (`types/compound.py:56-58`, `164-169`, `251-269`, `315-333`, `435-441`), with the level of the owner: the context is made for the native format
(`transforms.py:413-421`), whatever the format, and nested models export their fields with it. -/
def fieldExportBare (env : Env) (fmt : Fmt) (owner : Nat) : Nat → Field → Val → R Val
  | 0 => fun _ _ => .error .fuel
  | n + 1 => fun f v =>
    match f.ty with
    | .model _ => exportF (fieldExport env { fmt := .native } n) env { fmt := .native } owner f v
    | .poly _ => exportF (fieldExport env { fmt := .native } n) env { fmt := .native } owner f v
    | _ => exportF (fun _ => fieldExportBare env fmt owner n) env { fmt := fmt } owner f v

/-- `field.to_primitive(value)` and `field.to_native(value)` of a compound field (`types/compound.py:63-69`), with the level of the owner. -/
def fieldTo (env : Env) (n : Nat) (fmt : Fmt) (owner : Nat) (f : Field) (v : Val) : R Val := fieldExport env { fmt := fmt } n owner f v

end Verif
