import Verif.Core.Export
import Verif.Core.ImportLemmas

/-!
# Model instances

The stateful top-level instance: `ModelDict` with its layers (`models.py:148-198`), the field
descriptors (`models.py:29-67`) and the methods of `Model` (`models.py:201-449`).

Every operation is a function `state → result × new state`; the new state is also given when the
operation raises.  Simplifications (besides those of DESIGN.md): the caller's dicts are not
aliased (`lazy=True` keeps the very dict passed by the caller, `trusted_data` too); a field that
holds an explicit `Undefined` is not skipped by the view (see `ClassDef.view`).
-/
namespace Verif

/-- `ModelDict` (`models.py:148-160`).  `raw` is the `unsafe` layer.  `__valid` (the dict that
`__delitem__` works on) is the dict behind `_valid` until `valid` is assigned for the first time
(`models.py:181-184` assigns `_valid` only); `stale = none` means they are still the same dict. -/
structure Inst where
  raw : Data := []
  converted : Data := []
  valid : Data := []
  stale : Option Data := none

namespace Inst

/-- All entries of the chain map, earlier layers first (`models.py:157`). -/
def content (I : Inst) : Data := (I.valid.update I.converted).update I.raw

/-- `name in instance._data` / `instance._data[name]`. -/
def lookup (I : Inst) (k : Key) : Option Val :=
  match Dict.get? I.raw k with
  | some v => some v
  | none =>
    match Dict.get? I.converted k with
    | some v => some v
    | none => Dict.get? I.valid k

/-- The `valid` setter (`models.py:181-184`): `__valid` keeps the old dict. -/
def setValid (I : Inst) (d : Data) : Inst :=
  { I with valid := d, stale := some (I.stale.getD I.valid) }

end Inst

/-- The field called `name`. -/
def ClassDef.field? (c : ClassDef) (name : String) : Option FieldDef :=
  c.fields.find? fun fd => fd.name == name

/-- Value or `UndefinedValueError` (`models.py:49-53`). -/
def definedOr : Option Val → R Val
  | some v => if v.isUndef then .error (.other "UndefinedValueError") else .ok v
  | none => .error (.other "UndefinedValueError")

/-- `instance.name` for a declared field: `FieldDescriptor.__get__` (`models.py:41-53`) or
`Serializable.__get__` (`types/serializable.py:80-88`). -/
def getAttr (c : ClassDef) (I : Inst) (name : String) : R Val :=
  match c.field? name with
  | none => .error (.other "AttributeError")
  | some fd =>
    match fd.fget with
    | some g => match g I.content with
      | some v => definedOr (some v)
      | none => .error (.other "Exception")
    | none => definedOr (I.lookup (.str name))

/-- The context of `Model(value)` with default arguments (`models.py:221-238`). -/
def newCtx : Ctx := { init := true, defaults := true, partial_ := true, strict := true, oo := true }

/-- `field.pre_setattr` (`types/base.py:287-288`, `types/compound.py:142-148`). -/
def preSet (env : Env) (n : Nat) (f : Field) (v : Val) : R Val :=
  match f.ty with
  | .model cls =>
    match v with
    | .none => .ok .none
    | .inst k d => .ok (.inst k d)
    | .dict d =>
      match env.cls cls with
      | some c => newInstance (fieldConv env n) env newCtx c d
      | none => .error (.other "ImportError")
    | _ => convErr "model"
  | _ => .ok v

/-- `instance.name = v` (`models.py:55-61`, `types/serializable.py:90-94`). -/
def setAttr (env : Env) (n : Nat) (c : ClassDef) (I : Inst) (name : String) (v : Val) : R Unit × Inst :=
  match c.field? name with
  | none => (.error (.other "AttributeError"), I)
  | some fd =>
    match fd.fget with
    | some _ =>
      match fd.fset with
      | none => (.error (.other "AttributeError"), I)
      | some f =>
        match preSet env n fd.field v with
        | .error e => (.error e, I)
        | .ok w =>
          match f w with
          | .error e => (.error e, I)
          | .ok asg => (.ok (), { I with converted := I.converted.update asg })
    | none =>
      match preSet env n fd.field v with
      | .error e => (.error e, I)
      | .ok w => (.ok (), { I with converted := I.converted.set (.str name) w })

/-- `ModelDict.__delitem__` (`models.py:186-195`): deletes from `__valid`, `_converted`, `_unsafe`,
`KeyError` if none of them has the key. -/
def Inst.delete (I : Inst) (k : Key) : R Unit × Inst :=
  let old := I.stale.getD I.valid
  if old.has k || I.converted.has k || I.raw.has k then
    (.ok (), {
      raw := I.raw.erase k
      converted := I.converted.erase k
      valid := if I.stale.isSome then I.valid else I.valid.erase k
      stale := I.stale.map (fun d => d.erase k) })
  else (.error (.other "KeyError"), I)

/-- `del instance.name` (`models.py:63-67`); a `Serializable` has no `__delete__`. -/
def delAttr (c : ClassDef) (I : Inst) (name : String) : R Unit × Inst :=
  match c.field? name with
  | none => (.error (.other "AttributeError"), I)
  | some fd => if fd.fget.isSome then (.error (.other "AttributeError"), I) else I.delete (.str name)

/-- The assignments which the setters make, in order (`transforms.py:187-198`): those of the setters before one that raises an unexpected exception, if there is such a
one.  (What a setter assigns before it raises itself is not modelled.) -/
def setterSteps (rec : Rec) (ctx : Ctx) (raw : Data) : List FieldDef → List (Key × Val)
  | [] => []
  | fd :: fds =>
    let v := rawValue raw fd.name
    if v.isUndef then setterSteps rec ctx raw fds
    else
      match rec ctx true fd.field v with
      | .error e => if e.caught then setterSteps rec ctx raw fds else
          match e with
          | .other "AttributeError" => setterSteps rec ctx raw fds
          | _ => []
      | .ok w =>
        match (match fd.fset with | some f => f w | none => .ok []) with
        | .ok asg => asg ++ setterSteps rec ctx raw fds
        | .error e => if e.caught then setterSteps rec ctx raw fds else
            match e with
            | .other "AttributeError" => setterSteps rec ctx raw fds
            | _ => []

/-- What the setters leave in the converted layer (`transforms.py:187-198`). -/
def setterWrites (env : Env) (n : Nat) (ctx : Ctx) (c : ClassDef) (raw conv : Data) : Data :=
  conv.update (setterSteps (fieldConv env n) ctx raw c.settable)

/-- The entries with which `_mutate` updates the input (`transforms.py:199`); not reached if a setter raised an unexpected exception. -/
def copied (env : Env) (n : Nat) (ctx : Ctx) (c : ClassDef) (raw content : Data) : List (Key × Val) :=
  match runSetters (fieldConv env n) ctx raw true c.settable [] [] with
  | .ok _ => c.view content
  | .error _ => []

/-- `raw_data` of `_convert` and whether it is the converted layer itself (`models.py:289-296`):
a falsy input is replaced by the converted layer; pending raw data is merged in. -/
def Inst.source (I : Inst) (raw : Data) : Data :=
  let r := if raw.isEmpty then I.converted else raw
  if I.raw.isEmpty then r else I.raw.update r

/-- The state after `_convert` has taken the pending raw data and, when validating, after
`_mutate` (`models.py:292-296`, `transforms.py:181-200`; `raw_data.update` changes the converted
layer when that is the input). -/
def Inst.afterConvert (env : Env) (n : Nat) (ctx : Ctx) (c : ClassDef) (I : Inst) (raw : Data) : Inst :=
  let I1 := { I with raw := [] }
  if ctx.validate then
    let conv := setterWrites env n ctx c (I.source raw) I.converted
    if raw.isEmpty && I.raw.isEmpty then
      { I1 with converted := conv.update (copied env n ctx c (I.source raw) ({ I1 with converted := conv } : Inst).content) }
    else { I1 with converted := conv }
  else I1

/-- The context of `_convert` (`models.py:290-299`). -/
def Inst.convertCtx (I : Inst) (ctx : Ctx) : Ctx :=
  { ctx with oo := true, convert := ctx.convert || !I.raw.isEmpty, conv := if ctx.validate then .val else .imp }

/-- `Model._convert` (`models.py:281-299`) without a given context. -/
def instConvert (env : Env) (n : Nat) (c : ClassDef) (I : Inst) (raw : Data) (ctx : Ctx) : R Data × Inst :=
  let I1 := { I with raw := [] }
  let ctx' := I.convertCtx ctx
  (if ctx.validate then runValidate env n ctx' c (.inst I1.content) (I.source raw)
    else runImport env n ctx' c (.inst I1.content) (I.source raw),
   I.afterConvert env n ctx' c raw)

/-- `Model.validate` (`models.py:240-266`): the options are `partial`, `convert`, `app_data` and
`**kwargs` of `ctx`. -/
def instValidate (env : Env) (n : Nat) (c : ClassDef) (I : Inst) (ctx : Ctx) : R Unit × Inst :=
  if I.converted.isEmpty && ctx.partial_ then (.ok (), I)
  else
    match instConvert env n c I [] { ctx with validate := true, trusted := [] } with
    | (.ok d, I1) => (.ok (), { I1.setValid d with converted := [] })
    | (.error (.data es p), I1) => (.error (.data es p), { I1.setValid (I1.valid.update p) with converted := [] })
    | (.error e, I1) => (.error e, { I1 with converted := [] })

/-- `Model.import_data` (`models.py:268-279`). -/
def instImport (env : Env) (n : Nat) (c : ClassDef) (I : Inst) (raw : Data) (ctx : Ctx) : R Unit × Inst :=
  match instConvert env n c I raw { ctx with trusted := c.view I.content } with
  | (.error e, I1) => (.error e, I1)
  | (.ok d, I1) =>
    let I2 := { I1 with converted := I1.converted.update d }
    if ctx.validate then instValidate env n c I2 { convert := false }
    else (.ok (), I2)

/-- `Model.__init__` (`models.py:221-238`); `ctx` holds `partial`, `strict`, `validate`, `app_data`,
the mapping and `init_values`/`apply_defaults`. -/
def instInit (env : Env) (n : Nat) (c : ClassDef) (raw trusted : Data) (lazy_ : Bool) (ctx : Ctx) : R Inst :=
  if lazy_ then .ok { raw := raw, valid := trusted }
  else
    match instConvert env n c { valid := trusted } raw { ctx with trusted := trusted } with
    | (.error e, _) => .error e
    | (.ok d, I1) =>
      let I2 := { I1 with converted := d }
      if ctx.validate then
        match instValidate env n c I2
            { partial_ := ctx.partial_, app := ctx.app, init := ctx.init, defaults := ctx.defaults } with
        | (.ok (), I3) => .ok I3
        | (.error e, _) => .error e
      else .ok I2

/-- `Model.to_primitive` / `to_native` (`models.py:305-309`). -/
def instExport (env : Env) (n : Nat) (c : ClassDef) (I : Inst) (ectx : ECtx) : R Data :=
  runExport env n ectx c (.inst I.content)

/-- `Model.serialize` (`models.py:311-319`): validate (ignoring `DataError`), export, put the
converted layer back (the same dict object, changed by `_mutate`). -/
def instSerialize (env : Env) (n : Nat) (c : ClassDef) (I : Inst) (ectx : ECtx) : R Data × Inst :=
  let vctx : Ctx := { defaults := true, validate := true }
  let saved := (I.afterConvert env n (I.convertCtx vctx) c []).converted
  match instValidate env n c I vctx with
  | (.error (.data _ _), I1) | (.ok (), I1) =>
    match instExport env n c I1 ectx with
    | .error e => (.error e, I1)
    | .ok d => (.ok d, { I1 with converted := saved })
  | (.error e, I1) => (.error e, I1)

/-! ## The mapping interface -/

/-- `__iter__`, `keys` (`models.py:329-334`). -/
def Inst.keys (c : ClassDef) (I : Inst) : List String :=
  (c.fields.filter fun fd => fd.fset.isNone && (I.lookup (.str fd.name)).isSome).map (·.name)

/-- `self._data[k]`; the key is known to be present. -/
def Inst.stored (I : Inst) (name : String) : Val := (I.lookup (.str name)).getD .undef

/-- `items` (`models.py:336-337`). -/
def Inst.items (c : ClassDef) (I : Inst) : List (String × Val) := (I.keys c).map fun k => (k, I.stored k)

/-- `values` (`models.py:339-340`). -/
def Inst.values (c : ClassDef) (I : Inst) : List Val := (I.keys c).map I.stored

/-- `get(key, default)` (`models.py:342-343`): `getattr` with a default, which swallows
`AttributeError` only (`UndefinedValueError` is one, `exceptions.py:240`). -/
def Inst.get (c : ClassDef) (I : Inst) (name : String) (dflt : Val) : R Val :=
  match getAttr c I name with
  | .ok v => .ok v
  | .error (.other "AttributeError") => .ok dflt
  | .error (.other "UndefinedValueError") => .ok dflt
  | .error e => .error e

/-- `instance[name]` (`models.py:383-387`). -/
def Inst.getItem (c : ClassDef) (I : Inst) (name : String) : R Val :=
  match c.field? name with
  | none => .error (.other "UnknownFieldError")
  | some _ => getAttr c I name

/-- `instance[name] = v` (`models.py:389-393`). -/
def Inst.setItem (env : Env) (n : Nat) (c : ClassDef) (I : Inst) (name : String) (v : Val) : R Unit × Inst :=
  match c.field? name with
  | none => (.error (.other "UnknownFieldError"), I)
  | some _ => setAttr env n c I name v

/-- `del instance[name]` (`models.py:395-399`). -/
def Inst.delItem (c : ClassDef) (I : Inst) (name : String) : R Unit × Inst :=
  match c.field? name with
  | none => (.error (.other "UnknownFieldError"), I)
  | some _ => delAttr c I name

/-- `name in cls._serializables` (`models.py:99-100`, `schema.py`). -/
def ClassDef.isSerializable (c : ClassDef) (name : String) : Bool :=
  c.fields.any fun fd => fd.name == name && fd.fget.isSome

/-- `name in instance` (`models.py:401-403`).  An exception of a getter other than
`AttributeError` is read as "not there" (simplification). -/
def Inst.contains (c : ClassDef) (I : Inst) (name : String) : Bool :=
  ((I.lookup (.str name)).isSome && (match I.get c name .undef with | .ok v => !v.isUndef | .error _ => false))
    || c.isSerializable name

/-- `len(instance)` (`models.py:405-406`). -/
def Inst.len (I : Inst) : Nat := I.content.length

/-! ## Histories -/

/-- A call of a public mutating method. -/
inductive Op
  | set (name : String) (v : Val)
  | del (name : String)
  | validate (ctx : Ctx)
  | importData (raw : Data) (ctx : Ctx)
  | serialize (ectx : ECtx)

/-- The state after a call, whether it returned or raised. -/
def Op.run (env : Env) (n : Nat) (c : ClassDef) (I : Inst) : Op → Inst
  | .set name v => (setAttr env n c I name v).2
  | .del name => (delAttr c I name).2
  | .validate ctx => (instValidate env n c I ctx).2
  | .importData raw ctx => (instImport env n c I raw ctx).2
  | .serialize ectx => (instSerialize env n c I ectx).2

/-- The state after a history of calls. -/
def runOps (env : Env) (n : Nat) (c : ClassDef) : Inst → List Op → Inst
  | I, [] => I
  | I, op :: ops => runOps env n c (op.run env n c I) ops

end Verif
