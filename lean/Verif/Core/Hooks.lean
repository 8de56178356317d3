import Verif.Core.Factory

/-!
# User code called by the engine

The engine of `Core/Import.lean` with every call of user code made explicit: reading a (callable) default, `to_native`, an overridden `validate`, field validators, `validate_<field>` methods of models
and setters of serializables are calls with effects on an arbitrary state `σ`.  Each call is made at a *place*, a list of steps that says where in the run it happens; the rest of the code is as in
`Core/Import.lean` and `Core/Factory.lean`.  (Getters, claim functions and key coercions are not calls here; they stay functions.)

* at the place `p` of a model: `p ++ [setters, at i]` is the `i`-th setter, `p ++ [fields, at i]` the `i`-th field of the loop, `p ++ [methods, at i]` the call of the `validate_` method of the `i`-th field;
* at the place `p` of a setter: `p ++ [input]` is the value for it, `p ++ [assign]` the call of the setter;
* at the place `p` of a field: `p ++ [dflt]` is the reading of its default, `p ++ [value]` its value, `p ++ [repl]` the reading of the default as a replacement;
* at the place `p` of a value: `p ++ [conv]` is its conversion (a call for a scalar type, a model for a model type, and `p ++ [conv, at i]` the values of the items of a list or dict),
  `p ++ [checks, at j]` the call of the `j`-th validator.
-/
namespace Verif

/-- One step into a run, see above. -/
inductive Step
  | setters | fields | methods
  | input | assign
  | dflt | value | repl
  | conv | checks
  | at (i : Nat)
deriving DecidableEq, Repr

/-- Where in a run something happens. -/
abbrev Place := List Step

/-- The user code of a program: what happens when the code with the given pure meaning is called (`types/base.py:280-285`, `296-301`, `307-333`, `validate.py:95`,
`types/serializable.py:90-94`). -/
structure Hooks (σ : Type) where
  dflt : Place → ClassDef → FieldDef → St σ Val
  native : Place → Leaf → Val → Val → St σ Val
  override : Place → (Bool → Val → Val → R Val) → Bool → Val → Val → St σ Val
  check : Place → Validator → Val → Val → St σ Unit
  model : Place → ModelValidator → Data → Data → Val → Val → St σ Data
  setter : Place → (Val → R Data) → Val → St σ Data

/-- A recursive call to the field converter at a place. -/
abbrev HRec (σ : Type) := Place → Ctx → Bool → Field → Val → St σ Val

/-- Input value, else default, else `None` (`transforms.py:129-135`). -/
def fillValueH (h : Hooks σ) (p : Place) (ctx : Ctx) (c : ClassDef) (fd : FieldDef) (v : Val) : St σ Val :=
  St.bind (if v.isUndef && ctx.defaults then h.dflt (p ++ [.dflt]) c fd else St.pure (.ok v)) fun v => St.pure (.ok (if v.isUndef && ctx.init then .none else v))

/-- Replacement stored for a failed field (`transforms.py:156-161`). -/
def failReplH (h : Hooks σ) (p : Place) (ctx : Ctx) (c : ClassDef) (fd : FieldDef) (e : Exc) : St σ (Option Val) :=
  St.bind (if ctx.defaults then h.dflt (p ++ [.repl]) c fd else St.pure (.ok .undef)) fun d =>
    St.pure (.ok (match e with
      | .data _ part => some (.dict part)
      | _ => if d.isUndef then none else some d))

/-- Body of the loop for one field (`transforms.py:120-167`). -/
def fieldOutcomeH (h : Hooks σ) (rec : HRec σ) (env : Env) (p : Place) (ctx : Ctx) (c : ClassDef) (raw : Data) (inData : Bool) (fd : FieldDef) : St σ Outcome :=
  if (inputValue raw ctx.mapping fd).isUndef && inData then St.pure (.ok .skip)
  else
    St.bind (fillValueH h p ctx c fd (inputValue raw ctx.mapping fd)) fun v =>
      St.handle (rec (p ++ [.value]) (if fd.field.ty.isCompound then subCtx env ctx fd.name else ctx) true fd.field v) (fun w => St.pure (.ok (keepValue w))) fun e =>
        if e.caught then St.bind (failReplH h p ctx c fd e) fun r => St.pure (.ok (.fail e.tree r)) else St.pure (.error e)

/-- The loop over the fields, from the `i`-th on (`transforms.py:120-167`). -/
def importFieldsH (h : Hooks σ) (rec : HRec σ) (env : Env) (p : Place) (ctx : Ctx) (c : ClassDef) (raw : Data) : Nat → List FieldDef → Acc → St σ Acc
  | _, [], a => St.pure (.ok a)
  | i, fd :: fds, a => St.bind (fieldOutcomeH h rec env (p ++ [.fields] ++ [.at i]) ctx c raw (a.data.has (.str fd.name)) fd) fun o =>
      importFieldsH h rec env p ctx c raw (i + 1) fds (a.apply fd o)

/-- `import_loop` after `_mutate` (`transforms.py:101-178`). -/
def importBodyH (h : Hooks σ) (rec : HRec σ) (env : Env) (p : Place) (ctx : Ctx) (c : ClassDef) (raw : Data) (errs0 : Errs) : St σ Data :=
  St.bind (importFieldsH h rec env p ctx c raw 0 (c.loopFields ctx) ⟨ctx.trusted, (rogueKeys ctx c raw).foldl (fun es k => Dict.set es k .rogue) errs0⟩) fun a =>
    St.pure (finishImport c ctx raw a)

/-- `field.__set__(mutable, value)` (`transforms.py:193`): the assignments of the setter. -/
def callSetterH (h : Hooks σ) (p : Place) (fd : FieldDef) (w : Val) : St σ Data :=
  match fd.fset with
  | some f => h.setter p f w
  | none => St.pure (.ok [])

/-- Run the setters, from the `i`-th on (`transforms.py:187-198`). -/
def runSettersH (h : Hooks σ) (rec : HRec σ) (p : Place) (ctx : Ctx) (raw : Data) (onInst : Bool) : Nat → List FieldDef → Errs → Data → St σ (Errs × Data)
  | _, [], es, d => St.pure (.ok (es, d))
  | i, fd :: fds, es, d =>
    if (rawValue raw fd.name).isUndef then runSettersH h rec p ctx raw onInst (i + 1) fds es d
    else
      St.handle (St.bind (rec (p ++ [.setters] ++ [.at i] ++ [.input]) ctx true fd.field (rawValue raw fd.name)) fun w => callSetterH h (p ++ [.setters] ++ [.at i] ++ [.assign]) fd w)
        (fun asg => runSettersH h rec p ctx raw onInst (i + 1) fds es (if onInst then d.update asg else d))
        (fun e => St.bind (St.pure (setterError fd es e)) fun es => runSettersH h rec p ctx raw onInst (i + 1) fds es d)

/-- `_mutate` (`transforms.py:181-200`). -/
def runMutateH (h : Hooks σ) (rec : HRec σ) (p : Place) (ctx : Ctx) (c : ClassDef) (mu : Mut) (raw : Data) : St σ MutRes :=
  match mu with
  | .inst d => St.bind (runSettersH h rec p ctx raw true 0 c.settable [] d) fun r => St.pure (.ok ⟨r.1, r.2, raw.update (c.view r.2)⟩)
  | .same rawIsInst => St.bind (runSettersH h rec p ctx raw false 0 c.settable [] []) fun r =>
      St.pure (if rawIsInst then .error (.other "AttributeError") else .ok ⟨r.1, raw, raw⟩)

/-- `import_loop` (`transforms.py:25-178`). -/
def importLoopH (h : Hooks σ) (rec : HRec σ) (env : Env) (p : Place) (ctx : Ctx) (c : ClassDef) (mu : Mut) (raw : Data) : St σ Data :=
  if ctx.validate then St.bind (runMutateH h rec p ctx c mu raw) fun m => importBodyH h rec env p ctx c m.raw m.errs
  else importBodyH h rec env p ctx c raw []

/-- The exception of a `validate_` method (`validate.py:96-99`): what is reported, or the exception goes on. -/
def modelError : Exc → R ErrTree
  | .field _ m => .ok (.msgs m)
  | .data es _ => .ok (.node es)
  | e => .error e

/-- The method of a field, if the field has a value (`validate.py:93-94`). -/
def methodFor (c : ClassDef) (d : Data) (fd : FieldDef) : Option ModelValidator :=
  if (rawValue d fd.name).isUndef then none else Dict.get? c.validators fd.name

/-- The loop of `_validate_model` (`validate.py:93-99`), from the `i`-th field on. -/
def modelValidatorsH (h : Hooks σ) (p : Place) (c : ClassDef) (mutView : Data) (app : Val) : Nat → List FieldDef → Data → St σ (Errs × List String × Data)
  | _, [], d => St.pure (.ok ([], [], d))
  | i, fd :: fds, d =>
    match methodFor c d fd with
    | none => modelValidatorsH h p c mutView app (i + 1) fds d
    | some f =>
      St.handle (h.model (p ++ [.methods] ++ [.at i]) f mutView d (rawValue d fd.name) app) (fun d' => modelValidatorsH h p c mutView app (i + 1) fds d')
        (fun e => St.bind (St.pure (modelError e)) fun t => St.bind (modelValidatorsH h p c mutView app (i + 1) fds d) fun r =>
          St.pure (.ok ((.str fd.extName, t) :: r.1, fd.name :: r.2.1, r.2.2)))

/-- The end of `_validate_model` (`validate.py:101-104`). -/
def finishModel (r : Errs × List String × Data) : R (Errs × Data) :=
  match popAll r.2.1 r.2.2 with
  | .error e => .error e
  | .ok d => .ok (Dict.update [] r.1, d)

/-- The end of `validate` (`validate.py:66-69`). -/
def finishBoth (es : Errs) (r : Errs × Data) : R Data := if (es.update r.1).isEmpty then .ok r.2 else .error (.data (es.update r.1) r.2)

/-- `validate.validate` (`validate.py:18-69`). -/
def validateFnH (h : Hooks σ) (rec : HRec σ) (env : Env) (p : Place) (ctx : Ctx) (c : ClassDef) (mu : Mut) (raw : Data) : St σ Data :=
  St.bind (runMutateH h rec p ctx c mu raw) fun m =>
    St.bind (St.handle (importBodyH h rec env p ctx c m.raw m.errs) (fun d => St.pure (.ok (([] : Errs), d))) fun e => St.pure (catchData e)) fun r =>
      St.bind (St.bind (modelValidatorsH h p c m.data ctx.app 0 c.fields r.2) fun x => St.pure (finishModel x)) fun x => St.pure (finishBoth r.1 x)

/-- The loop of `ListType._convert` (`types/compound.py:225-229`). -/
def listLoopH (f : Nat → Val → St σ Val) : Nat → List Val → St σ (List Val × Errs)
  | _, [] => St.pure (.ok ([], []))
  | i, x :: xs =>
    St.handle (f i x) (fun y => St.bind (listLoopH f (i + 1) xs) fun r => St.pure (.ok (y :: r.1, r.2))) fun e =>
      if e.caught then St.bind (listLoopH f (i + 1) xs) fun r => St.pure (.ok (r.1, (.int i, e.tree) :: r.2)) else St.pure (.error e)

/-- The loop of `DictType._convert` (`types/compound.py:306-310`), from the `i`-th item on. -/
def dictLoopH (f : Nat → Val → St σ Val) (coerce : Key → R Key) : Nat → List (Key × Val) → Data → Errs → St σ (Data × Errs)
  | _, [], d, es => St.pure (.ok (d, es))
  | i, (k, x) :: kvs, d, es =>
    St.handle (St.bind (f i x) fun y => St.pure (coerced coerce k y)) (fun r => dictLoopH f coerce (i + 1) kvs (d.set r.1 r.2) es) fun e =>
      if e.caught then dictLoopH f coerce (i + 1) kvs d (es.set k e.tree) else St.pure (.error e)

/-- `model_class(value, context=context)` (`models.py:221-238`, `281-299`). -/
def newInstanceH (h : Hooks σ) (rec : HRec σ) (env : Env) (p : Place) (ctx : Ctx) (c : ClassDef) (raw : Data) : St σ Val :=
  St.bind (if ctx.validate then validateFnH h rec env p ctx c (.inst []) raw else importLoopH h rec env p ctx c (.inst []) raw) fun d => St.pure (.ok (.inst c.name d))

/-- Second half of `ModelType._convert` (`types/compound.py:159-162`). -/
def modelIntoH (h : Hooks σ) (rec : HRec σ) (env : Env) (p : Place) (ctx : Ctx) (c : ClassDef) (raw : Data) (isInst : Bool) : St σ Val :=
  if ctx.convert && ctx.oo then newInstanceH h rec env p ctx c raw
  else St.bind (importLoopH h rec env p ctx c (.same isInst) raw) fun d => St.pure (.ok (.dict d))

/-- `ModelType._convert` (`types/compound.py:150-162`). -/
def modelConvH (h : Hooks σ) (rec : HRec σ) (env : Env) (p : Place) (ctx : Ctx) (cls : String) (v : Val) : St σ Val :=
  St.bind (St.pure (modelArgs env cls v)) fun r => modelIntoH h rec env p ctx r.1 r.2.1 r.2.2

/-- `PolyModelType._convert` (`types/compound.py:382-400`). -/
def polyConvH (h : Hooks σ) (rec : HRec σ) (env : Env) (p : Place) (ctx : Ctx) (s : PolySpec) (v : Val) : St σ Val :=
  St.bind (St.pure (polyArgs env ctx s v)) fun
    | .keep v => St.pure (.ok v)
    | .make c raw => newInstanceH h rec env p ctx c raw

/-- `field.convert` (`types/base.py:290-291`, `types/compound.py:49-51`). -/
def convertFH (h : Hooks σ) (rec : HRec σ) (env : Env) (p : Place) (ctx : Ctx) (f : Field) (v : Val) : St σ Val :=
  match f.ty with
  | .leaf l => h.native (p ++ [.conv]) l ctx.app v
  | .list inner _ _ =>
    match coerceList env v with
    | none => St.pure (convErr "list")
    | some xs => St.bind (listLoopH (fun i => rec (p ++ [.conv] ++ [.at i]) ctx false inner) 0 xs) fun r => St.pure (finishList r)
  | .dict inner coerce =>
    match v with
    | .dict kvs => St.bind (dictLoopH (fun i => rec (p ++ [.conv] ++ [.at i]) ctx false inner) coerce 0 kvs [] []) fun r => St.pure (finishDict r)
    | _ => St.pure (convErr "dict")
  | .model cls => modelConvH h rec env (p ++ [.conv]) ctx cls v
  | .poly s => polyConvH h rec env (p ++ [.conv]) ctx s v

/-- Prepend the messages of one validator. -/
def moreMsgs (m : List Msg) : Option (List Msg) → Option (List Msg)
  | some ms => some (m ++ ms)
  | none => some m

/-- The validator loop (`types/base.py:322-329`), from the `j`-th on. -/
def runValidatorsH (h : Hooks σ) (p : Place) (app v : Val) : Nat → List Validator → St σ (Option (List Msg))
  | _, [] => St.pure (.ok none)
  | j, f :: fs =>
    St.handle (h.check (p ++ [.checks] ++ [.at j]) f app v) (fun _ => runValidatorsH h p app v (j + 1) fs) fun e =>
      match e with
      | .field .valid m => St.bind (runValidatorsH h p app v (j + 1) fs) fun r => St.pure (.ok (moreMsgs m r))
      | .field .stop m => St.pure (.ok (some m))
      | e => St.pure (.error e)

/-- `raise ValidationError(errors)` if there are errors, else the value (`types/base.py:330-333`). -/
def verdict (v : Val) : Option (List Msg) → R Val
  | none => .ok v
  | some ms => .error (.field .valid ms)

/-- The validators and their verdict (`types/base.py:322-333`). -/
def finishValidationH (h : Hooks σ) (p : Place) (app v : Val) (fs : List Validator) : St σ Val :=
  St.bind (runValidatorsH h p app v 0 fs) fun r => St.pure (verdict v r)

/-- `BaseType.validate` (`types/base.py:307-333`) or its override. -/
def validateFH (h : Hooks σ) (rec : HRec σ) (env : Env) (p : Place) (ctx : Ctx) (f : Field) (v : Val) : St σ Val :=
  match f.ty.override with
  | some g => h.override (p ++ [.conv]) g ctx.convert ctx.app v
  | none =>
    if ctx.convert then St.bind (convertFH h rec env p ctx f v) fun w => finishValidationH h p ctx.app w f.allValidators
    else if f.ty.isCompound then St.bind (convertFH h rec env p ctx f v) fun _ => finishValidationH h p ctx.app v f.allValidators
    else finishValidationH h p ctx.app v f.allValidators

/-- `import_converter` / `validation_converter` (`transforms.py:378-391`). -/
def fieldConvFH (h : Hooks σ) (rec : HRec σ) (env : Env) (p : Place) (ctx : Ctx) (named : Bool) (f : Field) (v : Val) : St σ Val :=
  if requiredFails ctx named f v then St.pure (convErr "required")
  else if v.isEmpty then St.pure (.ok v)
  else
    match ctx.conv with
    | .imp => convertFH h rec env p ctx f v
    | .val => validateFH h rec env p ctx f v

/-- The field converter with fuel. -/
def fieldConvH (h : Hooks σ) (env : Env) : Nat → HRec σ
  | 0 => fun _ _ _ _ _ => St.pure (.error .fuel)
  | n + 1 => fieldConvFH h (fieldConvH h env n) env

/-- `schematics.convert`/`import_loop` on a class with an initialised context. -/
def runImportH (h : Hooks σ) (env : Env) (n : Nat) (ctx : Ctx) (c : ClassDef) (mu : Mut) (raw : Data) : St σ Data :=
  importLoopH h (fieldConvH h env n) env [] ctx c mu raw

/-- `schematics.validate` on a class. -/
def runValidateH (h : Hooks σ) (env : Env) (n : Nat) (ctx : Ctx) (c : ClassDef) (mu : Mut) (raw : Data) : St σ Data :=
  validateFnH h (fieldConvH h env n) env [] ctx c mu raw

/-- What a caller starts: `schematics.convert` or `schematics.validate`. -/
inductive Start
  | convert | validate
deriving DecidableEq

/-- A run. -/
def runH (h : Hooks σ) (env : Env) (n : Nat) : Start → Ctx → ClassDef → Mut → Data → St σ Data
  | .convert => runImportH h env n
  | .validate => runValidateH h env n

/-! ## Watching -/

/-- What is called, with which arguments. -/
inductive Code
  | dflt (c : ClassDef) (fd : FieldDef)
  | native (l : Leaf) (app v : Val)
  | override (g : Bool → Val → Val → R Val) (convert : Bool) (app v : Val)
  | check (f : Validator) (app v : Val)
  | model (f : ModelValidator) (m d : Data) (v app : Val)
  | setter (f : Val → R Data) (w : Val)

/-- One call of user code: where, what, and the exception if it raised one. -/
structure Call where
  place : Place
  code : Code
  raised : Option Exc

/-- The exception of a result. -/
def R.exc : R α → Option Exc
  | .ok _ => none
  | .error e => some e

/-- The same computation; that it was made and how it ended is appended to a list. -/
def St.watched (p : Place) (w : Code) (m : St σ α) : St (σ × List Call) α := fun s =>
  ((m s.1).1, ((m s.1).2, s.2 ++ [⟨p, w, (m s.1).1.exc⟩]))

/-- The same user code, every call watched. -/
def Hooks.watched (h : Hooks σ) : Hooks (σ × List Call) where
  dflt p c fd := (h.dflt p c fd).watched p (.dflt c fd)
  native p l app v := (h.native p l app v).watched p (.native l app v)
  override p g b app v := (h.override p g b app v).watched p (.override g b app v)
  check p f app v := (h.check p f app v).watched p (.check f app v)
  model p f m d v app := (h.model p f m d v app).watched p (.model f m d v app)
  setter p f w := (h.setter p f w).watched p (.setter f w)

/-- The calls of a run from the state `s`. -/
def callsH (h : Hooks σ) (env : Env) (n : Nat) (k : Start) (ctx : Ctx) (c : ClassDef) (mu : Mut) (raw : Data) (s : σ) : List Call :=
  (runH h.watched env n k ctx c mu raw (s, [])).2.2

end Verif
