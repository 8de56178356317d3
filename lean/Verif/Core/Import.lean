import Verif.Core.Schema

/-!
# The import/validation engine

Models `transforms.import_loop`, `transforms._mutate`, `validate.validate`,
`validate._validate_model`, `BaseType.validate`, the converters and the
`_convert` methods of the compound types, in open-recursion style: every
definition takes `rec`, the recursive call to the field converter
(`context.field_converter(field, value, context)`); `fieldConv` ties the knot
with fuel (out of fuel = Python's `RecursionError`).
-/
namespace Verif

/-- The recursive call: context, "field has a name", field, value. -/
abbrev Rec := Ctx → Bool → Field → Val → R Val

/-! ## Input names -/

/-- `BaseType._get_input_keys` (`types/base.py:270-278`): own name, serialized
name, mapped names, `deserialize_from`. -/
def inputKeys (m : Mapping) (fd : FieldDef) : List String :=
  [fd.name]
    ++ (match fd.field.o.serializedName with
        | some s => if s = "" then [] else [s]
        | none => [])
    ++ (Dict.get? m.entries fd.name).getD []
    ++ fd.field.o.deserializeFrom

/-- `schema.valid_input_keys` plus the mapped keys (`schema.py:24-26`,
`transforms.py:103-108`). -/
def acceptedKeys (m : Mapping) (c : ClassDef) : List String :=
  c.fields.flatMap (inputKeys .empty) ++ m.entries.flatMap (·.2)

/-- `raw_data[field_name]` with any exception read as `Undefined`
(`iteration.py:62-66`). -/
def rawValue (raw : Data) (name : String) : Val := (Dict.get? raw (.str name)).getD .undef

/-- The alias loop (`transforms.py:123-127`): first truthy key other than the
field name that is present. -/
def aliasValue (raw : Data) (name : String) : List String → Val
  | [] => .undef
  | k :: ks =>
    if k ≠ "" ∧ k ≠ name then
      match Dict.get? raw (.str k) with
      | some v => v
      | none => aliasValue raw name ks
    else aliasValue raw name ks

/-- The raw input of a field: own name, else aliases
(`transforms.py:120-127`). -/
def inputValue (raw : Data) (m : Mapping) (fd : FieldDef) : Val :=
  let v := rawValue raw fd.name
  if v.isUndef then aliasValue raw fd.name (inputKeys m fd) else v

/-! ## One field of the import loop -/

/-- Context for a compound field (`transforms.py:138-149`, `Context._branch`
`datastructures.py:132-139`).  A `None` submap leaves the parent's mapping in
place. -/
def subCtx (env : Env) (ctx : Ctx) (name : String) : Ctx :=
  let td : Data :=
    if !ctx.trusted.isEmpty && ctx.recursive then
      match Dict.get? ctx.trusted (.str name) with
      | some (.dict d) => d
      | some (.inst c d) => env.view c d
      | some v => [(.str name, v)]
      | none => [(.str name, .none)]
    else []
  let mp : Mapping :=
    match ctx.mapping.sub with
    | some (e :: es) =>
      match Dict.get? (e :: es) name with
      | some m => m
      | none => ctx.mapping
    | _ => .empty
  { ctx with trusted := td, mapping := mp }

/-- What one iteration of the loop does to `data` and `errors`. -/
inductive Outcome
  /-- `continue` without storing (`transforms.py:131`, `165`) -/
  | skip
  /-- `data[field_name] = value` (`transforms.py:167`) -/
  | store (v : Val)
  /-- `errors[serialized_field_name] = exc`, plus the replacement value stored by
  `transforms.py:156-161` -/
  | fail (t : ErrTree) (repl : Option Val)

/-- The value handed to the converter: input value, else default, else `None`
(`transforms.py:129-135`). -/
def fillValue (ctx : Ctx) (fd : FieldDef) (v : Val) : Val :=
  let v := if v.isUndef && ctx.defaults then fd.field.o.default else v
  if v.isUndef && ctx.init then .none else v

/-- Replacement stored for a failed field (`transforms.py:156-161`). -/
def failRepl (ctx : Ctx) (fd : FieldDef) (e : Exc) : Option Val :=
  match e with
  | .data _ part => some (.dict part)
  | _ =>
    if ctx.defaults && !fd.field.o.default.isUndef then some fd.field.o.default else none

/-- Body of the loop over the fields (`transforms.py:120-167`) for one field.
`inData` is `field_name in data`. -/
def fieldOutcome (rec : Rec) (env : Env) (ctx : Ctx) (raw : Data) (inData : Bool)
    (fd : FieldDef) : R Outcome :=
  let v0 := inputValue raw ctx.mapping fd
  if v0.isUndef && inData then .ok .skip
  else
    let v := fillValue ctx fd v0
    let fctx := if fd.field.ty.isCompound then subCtx env ctx fd.name else ctx
    match rec fctx true fd.field v with
    | .ok w => if w.isUndef then .ok .skip else .ok (.store w)
    | .error e =>
      if e.caught then .ok (.fail e.tree (failRepl ctx fd e)) else .error e

/-- `data` and `errors` of the running loop. -/
structure Acc where
  data : Data
  errs : Errs

/-- Apply an outcome to the accumulators. -/
def Acc.apply (a : Acc) (fd : FieldDef) : Outcome → Acc
  | .skip => a
  | .store v => { a with data := a.data.set (.str fd.name) v }
  | .fail t repl =>
    { data := match repl with
        | some v => a.data.set (.str fd.name) v
        | none => a.data
      errs := a.errs.set (.str fd.extName) t }

/-- The loop over the fields (`transforms.py:120-167`). -/
def importFields (rec : Rec) (env : Env) (ctx : Ctx) (raw : Data) :
    List FieldDef → Acc → R Acc
  | [], a => .ok a
  | fd :: fds, a =>
    match fieldOutcome rec env ctx raw (a.data.has (.str fd.name)) fd with
    | .error e => .error e
    | .ok o => importFields rec env ctx raw fds (a.apply fd o)

/-- Fields without a setter (`iteration.py:86-87`). -/
def ClassDef.plain (c : ClassDef) : List FieldDef := c.fields.filter (fun fd => fd.fset.isNone)
/-- Fields with a setter (`iteration.py:82-83`). -/
def ClassDef.settable (c : ClassDef) : List FieldDef := c.fields.filter (fun fd => fd.fset.isSome)

/-- Fields visited by the loop (`transforms.py:116-120`). -/
def ClassDef.loopFields (c : ClassDef) (ctx : Ctx) : List FieldDef :=
  if ctx.validate then c.fields else c.plain

/-- Without validation the raw values of settable fields are copied
(`transforms.py:169-171`), `Undefined` when absent. -/
def copySettable (c : ClassDef) (ctx : Ctx) (raw : Data) (d : Data) : Data :=
  if ctx.validate then d
  else c.settable.foldl (fun d fd => d.set (.str fd.name) (rawValue raw fd.name)) d

/-- Rogue keys (`transforms.py:109-114`; input order instead of set order). -/
def rogueKeys (ctx : Ctx) (c : ClassDef) (raw : Data) : List Key :=
  if ctx.strict then
    raw.keys.filter fun k => !((acceptedKeys ctx.mapping c).map Key.str).contains k
  else []

/-- `import_loop` after `_mutate` (`transforms.py:101-178`), starting with the
errors `errs0` of the setters. -/
def importBody (rec : Rec) (env : Env) (ctx : Ctx) (c : ClassDef) (raw : Data)
    (errs0 : Errs) : R Data :=
  let errs1 := (rogueKeys ctx c raw).foldl (fun es k => Dict.set es k .rogue) errs0
  match importFields rec env ctx raw (c.loopFields ctx) ⟨ctx.trusted, errs1⟩ with
  | .error e => .error e
  | .ok a =>
    let data := copySettable c ctx raw a.data
    if a.errs.isEmpty then .ok data else .error (.data a.errs data)

/-! ## Setters and model-level validation -/

/-- The `mutable` argument of `import_loop`: a model instance with the given
content, or the raw mapping itself (`raw_data is mutable`). -/
inductive Mut
  | inst (data : Data)
  | same (rawIsInst : Bool)

/-- State while the setters run. -/
structure MutRes where
  errs : Errs
  data : Data   -- content of the mutable instance
  raw : Data

/-- Run the setters (`transforms.py:187-198`).  On a plain dict `field.__set__`
fails with `AttributeError`, which is swallowed. -/
def runSetters (rec : Rec) (ctx : Ctx) (raw : Data) (onInst : Bool) :
    List FieldDef → Errs → Data → R (Errs × Data)
  | [], es, d => .ok (es, d)
  | fd :: fds, es, d =>
    let v := rawValue raw fd.name
    if v.isUndef then runSetters rec ctx raw onInst fds es d
    else
      match rec ctx true fd.field v with
      | .error e =>
        if e.caught then runSetters rec ctx raw onInst fds (es.set (.str fd.extName) e.tree) d
        else
          match e with
          | .other "AttributeError" => runSetters rec ctx raw onInst fds es d
          | e => .error e
      | .ok w =>
        match (match fd.fset with | some f => f w | none => .ok []) with
        | .ok asg => runSetters rec ctx raw onInst fds es (if onInst then d.update asg else d)
        | .error e =>
          if e.caught then runSetters rec ctx raw onInst fds (es.set (.str fd.extName) e.tree) d
          else
            match e with
            | .other "AttributeError" => runSetters rec ctx raw onInst fds es d
            | e => .error e

/-- `_mutate` (`transforms.py:181-200`): run the setters, then
`raw_data.update((key, mutable[key]) for key in mutable)`.  If the raw data is a
model instance this raises `AttributeError` (`Model` has no `update`). -/
def runMutate (rec : Rec) (ctx : Ctx) (c : ClassDef) (mu : Mut) (raw : Data) : R MutRes :=
  match mu with
  | .inst d =>
    match runSetters rec ctx raw true c.settable [] d with
    | .error e => .error e
    | .ok (es, d') => .ok ⟨es, d', raw.update (c.view d')⟩
  | .same rawIsInst =>
    match runSetters rec ctx raw false c.settable [] [] with
    | .error e => .error e
    | .ok (es, _) => if rawIsInst then .error (.other "AttributeError") else .ok ⟨es, raw, raw⟩

/-- `import_loop` (`transforms.py:25-178`). -/
def importLoop (rec : Rec) (env : Env) (ctx : Ctx) (c : ClassDef) (mu : Mut) (raw : Data) :
    R Data :=
  if ctx.validate then
    match runMutate rec ctx c mu raw with
    | .error e => .error e
    | .ok m => importBody rec env ctx c m.raw m.errs
  else importBody rec env ctx c raw []

/-- The loop of `_validate_model` (`validate.py:93-99`): runs the model-level
validators in field order, collecting errors and invalid fields. -/
def modelValidators (c : ClassDef) (mutView : Data) (app : Val) :
    List FieldDef → Data → R (Errs × List String × Data)
  | [], d => .ok ([], [], d)
  | fd :: fds, d =>
    match (if (rawValue d fd.name).isUndef then none else Dict.get? c.validators fd.name) with
    | none => modelValidators c mutView app fds d
    | some f =>
      match f mutView d (rawValue d fd.name) app with
      | .ok d' => modelValidators c mutView app fds d'
      | .error e =>
        match (match e with
          | .field _ m => some (ErrTree.msgs m)
          | .data es _ => some (.node es)
          | _ => none) with
        | none => .error e
        | some t =>
          match modelValidators c mutView app fds d with
          | .error e => .error e
          | .ok (es, inv, d') => .ok ((.str fd.extName, t) :: es, fd.name :: inv, d')

/-- `for field_name in invalid_fields: data.pop(field_name)`
(`validate.py:101-102`). -/
def popAll : List String → Data → R Data
  | [], d => .ok d
  | n :: ns, d => if d.has (.str n) then popAll ns (d.erase (.str n)) else .error (.other "KeyError")

/-- `_validate_model` (`validate.py:72-104`). -/
def validateModel (c : ClassDef) (mutView : Data) (app : Val) (d : Data) : R (Errs × Data) :=
  match modelValidators c mutView app c.fields d with
  | .error e => .error e
  | .ok (es, inv, d') =>
    match popAll inv d' with
    | .error e => .error e
    | .ok d'' => .ok (Dict.update [] es, d'')

/-- `validate.validate` (`validate.py:18-69`), called with `ctx.validate` set. -/
def validateFn (rec : Rec) (env : Env) (ctx : Ctx) (c : ClassDef) (mu : Mut) (raw : Data) :
    R Data :=
  match runMutate rec ctx c mu raw with
  | .error e => .error e
  | .ok m =>
    match (match importBody rec env ctx c m.raw m.errs with
      | .ok d => .ok (([] : Errs), d)
      | .error (.data es d) => .ok (es, d)
      | .error e => .error e : R (Errs × Data)) with
    | .error e => .error e
    | .ok (es, d) =>
      match validateModel c m.data ctx.app d with
      | .error e => .error e
      | .ok (es2, d') =>
        let es' := es.update es2
        if es'.isEmpty then .ok d' else .error (.data es' d')

/-! ## Compound types -/

/-- `ListType._coerce` (`types/compound.py:210-219`). Bytes iterate as ints and a
model instance as its keys. -/
def coerceList (env : Env) : Val → Option (List Val)
  | .list xs => some xs
  | .tuple xs => some xs
  | .bytes bs => some (bs.map fun (b : Nat) => .int (b : Int))
  | .inst c d => some ((env.view c d).map fun kv =>
      match kv.1 with | .str s => .str s | .int i => .int i)
  | _ => none

/-- The loop of `ListType._convert` (`types/compound.py:225-229`) from index `i`:
converted items and errors. -/
def listLoop (f : Val → R Val) : Nat → List Val → R (List Val × Errs)
  | _, [] => .ok ([], [])
  | i, x :: xs =>
    match f x with
    | .ok y =>
      match listLoop f (i + 1) xs with
      | .error e => .error e
      | .ok (ys, es) => .ok (y :: ys, es)
    | .error e =>
      if e.caught then
        match listLoop f (i + 1) xs with
        | .error e => .error e
        | .ok (ys, es) => .ok (ys, (.int i, e.tree) :: es)
      else .error e

/-- `ListType._convert` (`types/compound.py:221-232`) after coercion. -/
def listConv (f : Val → R Val) (xs : List Val) : R Val :=
  match listLoop f 0 xs with
  | .error e => .error e
  | .ok (ys, es) => if es.isEmpty then .ok (.list ys) else .error (.compound es)

/-- The loop of `DictType._convert` (`types/compound.py:306-310`); the value is
converted before the key is coerced. -/
def dictLoop (f : Val → R Val) (coerce : Key → R Key) :
    List (Key × Val) → Data → Errs → R (Data × Errs)
  | [], d, es => .ok (d, es)
  | (k, x) :: kvs, d, es =>
    match (match f x with
      | .error e => .error e
      | .ok y => match coerce k with
        | .error e => .error e
        | .ok k' => .ok (k', y) : R (Key × Val)) with
    | .ok (k', y) => dictLoop f coerce kvs (d.set k' y) es
    | .error e => if e.caught then dictLoop f coerce kvs d (es.set k e.tree) else .error e

/-- `DictType._convert` (`types/compound.py:300-313`) on a mapping. -/
def dictConv (f : Val → R Val) (coerce : Key → R Key) (kvs : List (Key × Val)) : R Val :=
  match dictLoop f coerce kvs [] [] with
  | .error e => .error e
  | .ok (d, es) => if es.isEmpty then .ok (.dict d) else .error (.compound es)

/-- `model_class(value, context=context)` for a nested model: `Model.__init__`
and `Model._convert` with an initialised context (`models.py:221-238`,
`281-299`). -/
def newInstance (rec : Rec) (env : Env) (ctx : Ctx) (c : ClassDef) (raw : Data) : R Val :=
  match (if ctx.validate then validateFn rec env ctx c (.inst []) raw
         else importLoop rec env ctx c (.inst []) raw) with
  | .error e => .error e
  | .ok d => .ok (.inst c.name d)

/-- Second half of `ModelType._convert` (`types/compound.py:159-162`). -/
def modelInto (rec : Rec) (env : Env) (ctx : Ctx) (c : ClassDef) (raw : Data) (isInst : Bool) :
    R Val :=
  if ctx.convert && ctx.oo then newInstance rec env ctx c raw
  else
    match importLoop rec env ctx c (.same isInst) raw with
    | .error e => .error e
    | .ok d => .ok (.dict d)

/-- `ModelType._convert` (`types/compound.py:150-162`). -/
def modelConv (rec : Rec) (env : Env) (ctx : Ctx) (cls : String) (v : Val) : R Val :=
  match v with
  | .inst c' d =>
    if env.isSub c' cls then
      match env.cls c' with
      | some c => modelInto rec env ctx c (c.view d) true
      | none => .error (.other "ImportError")
    else convErr "model"
  | .dict d =>
    match env.cls cls with
    | some c => modelInto rec env ctx c d false
    | none => .error (.other "ImportError")
  | _ => convErr "model"

/-- `PolyModelType._get_candidates` (`types/compound.py:443-451`). -/
def PolySpec.candidates (p : PolySpec) (env : Env) : List String :=
  if p.allowSub then p.classes.flatMap (fun m => m :: env.subs m) else p.classes

/-- `PolyModelType.is_allowed_model` (`types/compound.py:373-380`). -/
def PolySpec.allowed (p : PolySpec) (env : Env) : Val → Bool
  | .inst c _ => if p.allowSub then p.classes.any (env.isSub c) else p.classes.contains c
  | _ => false

/-- The hook `kls._claim_polymorphic`, if the class defines it. -/
def Env.claim (env : Env) (c : String) : Option (Val → Bool) := (env.cls c).bind (·.claim)

/-- `PolyModelType.find_model` (`types/compound.py:402-433`). -/
def PolySpec.findModel (p : PolySpec) (env : Env) (v : Val) : R String :=
  match p.claim with
  | some f =>
    match f v with
    | some k => .ok k
    | none => .error (.other "Exception")
  | none =>
    let cands := p.candidates env
    let fallback := cands.find? fun k => (env.claim k).isNone
    let matching := cands.filter fun k => match env.claim k with | some f => f v | none => false
    match matching, fallback with
    | [], some k => .ok k
    | [k], _ => .ok k
    | _, _ => .error (.other "Exception")

/-- `PolyModelType._convert` (`types/compound.py:382-400`).  A value which is not
a mapping reaches `model_class(value)` only when validating: if falsy it is
replaced by `{}` (`models.py:289`), else `dict(value)` fails (modelled as
`TypeError`). -/
def polyConv (rec : Rec) (env : Env) (ctx : Ctx) (p : PolySpec) (v : Val) : R Val :=
  if !ctx.validate && p.allowed env v then .ok v
  else if !ctx.validate && !v.isDict then convErr "poly"
  else
    match p.findModel env v with
    | .error e => .error e
    | .ok k =>
      match env.cls k with
      | none => .error (.other "ImportError")
      | some c =>
        match v with
        | .dict d => newInstance rec env ctx c d
        | .inst k' d => newInstance rec env ctx c (env.view k' d)
        | v => if v.truthy then .error (.other "TypeError") else newInstance rec env ctx c []

/-! ## Fields -/

/-- `field.convert` (`types/base.py:290-291`, `types/compound.py:49-51`). -/
def convertF (rec : Rec) (env : Env) (ctx : Ctx) (f : Field) (v : Val) : R Val :=
  match f.ty with
  | .leaf l => l.toNative ctx.app v
  | .list inner _ _ =>
    match coerceList env v with
    | none => convErr "list"
    | some xs => listConv (rec ctx false inner) xs
  | .dict inner coerce =>
    match v with
    | .dict kvs => dictConv (rec ctx false inner) coerce kvs
    | _ => convErr "dict"
  | .model cls => modelConv rec env ctx cls v
  | .poly p => polyConv rec env ctx p v

/-- `len(value) if value else 0` in `ListType.check_length`
(`types/compound.py:235`). -/
def pyLen : Val → Nat
  | .list xs => xs.length
  | .tuple xs => xs.length
  | .dict kvs => kvs.length
  | .inst _ d => d.length
  | .str s => s.length
  | .bytes bs => bs.length
  | _ => 0

/-- `min_size is not None and list_length < min_size` (`types/compound.py:237`). -/
def tooShort : Option Nat → Nat → Bool
  | some m, n => decide (n < m)
  | none, _ => false

/-- `max_size is not None and list_length > max_size` (`types/compound.py:244`). -/
def tooLong : Option Nat → Nat → Bool
  | some m, n => decide (m < n)
  | none, _ => false

/-- `ListType.check_length` (`types/compound.py:234-249`). -/
def checkLength (min max : Option Nat) : Validator := fun _ v =>
  if tooShort min (pyLen v) then validErr "min_size"
  else if tooLong max (pyLen v) then validErr "max_size"
  else .ok ()

/-- `BaseType.validate_choices` (`types/base.py:340-343`). -/
def checkChoices (choices : Option (List Val)) : Validator := fun _ v =>
  match choices with
  | none => .ok ()
  | some cs => if Val.pyIn v cs then .ok () else validErr "choices"

/-- `self.validators` (`types/base.py:198-200`, `types/compound.py:194`):
`validate_choices` (defined on `BaseType`, so first), the type's own validators,
then the user's. -/
def Field.allValidators (f : Field) : List Validator :=
  checkChoices f.o.choices ::
    ((match f.ty with
      | .leaf l => l.validators
      | .list _ min max => [checkLength min max]
      | _ => []) ++ f.o.validators)

/-- The validator loop (`types/base.py:322-329`): `none` if no validator raised,
else the messages of the validators that raised `ValidationError`, stopping after
a `StopValidationError`; any other exception propagates. -/
def runValidators (app v : Val) : List Validator → R (Option (List Msg))
  | [] => .ok none
  | f :: fs =>
    match f app v with
    | .ok () => runValidators app v fs
    | .error (.field .valid m) =>
      match runValidators app v fs with
      | .ok (some ms) => .ok (some (m ++ ms))
      | .ok none => .ok (some m)
      | .error e => .error e
    | .error (.field .stop m) => .ok (some m)
    | .error e => .error e

/-- `raise ValidationError(errors)` if there are errors, else the value
(`types/base.py:330-333`; the messages are concatenated by
`exceptions.py:169-178`). -/
def finishValidation (app v : Val) (fs : List Validator) : R Val :=
  match runValidators app v fs with
  | .error e => .error e
  | .ok none => .ok v
  | .ok (some ms) => .error (.field .valid ms)

/-- The overridden `validate` method of a type, if any (`types/union.py:87-89`). -/
def FType.override : FType → Option (Bool → Val → Val → R Val)
  | .leaf l => l.override
  | _ => none

/-- `BaseType.validate` (`types/base.py:307-333`) or its override. -/
def validateF (rec : Rec) (env : Env) (ctx : Ctx) (f : Field) (v : Val) : R Val :=
  match f.ty.override with
  | some g => g ctx.convert ctx.app v
  | none =>
    if ctx.convert then
      match convertF rec env ctx f v with
      | .error e => .error e
      | .ok w => finishValidation ctx.app w f.allValidators
    else if f.ty.isCompound then
      match convertF rec env ctx f v with
      | .error e => .error e
      | .ok _ => finishValidation ctx.app v f.allValidators
    else finishValidation ctx.app v f.allValidators

/-- `check_required` fails (`types/base.py:335-338`): inner fields of lists and
dicts have no name. -/
def requiredFails (ctx : Ctx) (named : Bool) (f : Field) (v : Val) : Bool :=
  f.o.required && v.isEmpty && (!named || !ctx.partial_)

/-- `import_converter` / `validation_converter` (`transforms.py:378-391`). -/
def fieldConvF (rec : Rec) (env : Env) (ctx : Ctx) (named : Bool) (f : Field) (v : Val) : R Val :=
  if requiredFails ctx named f v then convErr "required"
  else if v.isEmpty then .ok v
  else
    match ctx.conv with
    | .imp => convertF rec env ctx f v
    | .val => validateF rec env ctx f v

/-- The field converter with fuel. -/
def fieldConv (env : Env) : Nat → Rec
  | 0 => fun _ _ _ _ => .error .fuel
  | n + 1 => fieldConvF (fieldConv env n) env

/-! ## Public entry points -/

/-- `schematics.convert`/`import_loop` on a class with an initialised context. -/
def runImport (env : Env) (n : Nat) (ctx : Ctx) (c : ClassDef) (mu : Mut) (raw : Data) : R Data :=
  importLoop (fieldConv env n) env ctx c mu raw

/-- `schematics.validate` on a class. -/
def runValidate (env : Env) (n : Nat) (ctx : Ctx) (c : ClassDef) (mu : Mut) (raw : Data) : R Data :=
  validateFn (fieldConv env n) env ctx c mu raw

end Verif
