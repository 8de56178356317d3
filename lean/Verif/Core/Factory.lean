import Verif.Core.Converter
import Verif.Core.ImportLemmas

/-!
# Callable defaults

`field.default` calls the default if it is callable (`types/base.py:280-285`), every time it is read.  This is the engine of `Core/Import.lean` with the reads of `field.default` in the
import loop (`transforms.py:132-133`, `156-157`) replaced by calls with effects on an arbitrary state `σ`, which may raise.  All the rest of the code is as there.
-/
namespace Verif

/-- Reading `field.default` (`types/base.py:280-285`). -/
abbrev Factory (σ : Type) := ClassDef → FieldDef → St σ Val

/-- A recursive call to the field converter, with effects. -/
abbrev SRec (σ : Type) := Ctx → Bool → Field → Val → St σ Val

/-- `try: m except ...: h` where `h` gets the exceptions; it may raise again. -/
def St.handle (m : St σ α) (k : α → St σ β) (h : Exc → St σ β) : St σ β := fun s =>
  match m s with
  | (.error e, s) => h e s
  | (.ok a, s) => k a s

/-- Input value, else default, else `None` (`transforms.py:129-135`). -/
def fillValueS (fac : Factory σ) (ctx : Ctx) (c : ClassDef) (fd : FieldDef) (v : Val) : St σ Val :=
  St.bind (if v.isUndef && ctx.defaults then fac c fd else St.pure (.ok v)) fun v => St.pure (.ok (if v.isUndef && ctx.init then .none else v))

/-- Replacement stored for a failed field (`transforms.py:156-161`): the default is read first, the partial data overwrites it. -/
def failReplS (fac : Factory σ) (ctx : Ctx) (c : ClassDef) (fd : FieldDef) (e : Exc) : St σ (Option Val) :=
  St.bind (if ctx.defaults then fac c fd else St.pure (.ok .undef)) fun d =>
    St.pure (.ok (match e with
      | .data _ part => some (.dict part)
      | _ => if d.isUndef then none else some d))

/-- What becomes of a converted value (`transforms.py:164-167`). -/
def keepValue (w : Val) : Outcome := if w.isUndef then .skip else .store w

/-- Body of the loop for one field (`transforms.py:120-167`). -/
def fieldOutcomeS (fac : Factory σ) (rec : SRec σ) (env : Env) (ctx : Ctx) (c : ClassDef) (raw : Data) (inData : Bool) (fd : FieldDef) : St σ Outcome :=
  if (inputValue raw ctx.mapping fd).isUndef && inData then St.pure (.ok .skip)
  else
    St.bind (fillValueS fac ctx c fd (inputValue raw ctx.mapping fd)) fun v =>
      St.handle (rec (if fd.field.ty.isCompound then subCtx env ctx fd.name else ctx) true fd.field v) (fun w => St.pure (.ok (keepValue w))) fun e =>
        if e.caught then St.bind (failReplS fac ctx c fd e) fun r => St.pure (.ok (.fail e.tree r)) else St.pure (.error e)

/-- The loop over the fields (`transforms.py:120-167`). -/
def importFieldsS (fac : Factory σ) (rec : SRec σ) (env : Env) (ctx : Ctx) (c : ClassDef) (raw : Data) : List FieldDef → Acc → St σ Acc
  | [], a => St.pure (.ok a)
  | fd :: fds, a => St.bind (fieldOutcomeS fac rec env ctx c raw (a.data.has (.str fd.name)) fd) fun o => importFieldsS fac rec env ctx c raw fds (a.apply fd o)

/-- The end of `import_loop` (`transforms.py:169-178`). -/
def finishImport (c : ClassDef) (ctx : Ctx) (raw : Data) (a : Acc) : R Data :=
  if a.errs.isEmpty then .ok (copySettable c ctx raw a.data) else .error (.data a.errs (copySettable c ctx raw a.data))

/-- `import_loop` after `_mutate` (`transforms.py:101-178`). -/
def importBodyS (fac : Factory σ) (rec : SRec σ) (env : Env) (ctx : Ctx) (c : ClassDef) (raw : Data) (errs0 : Errs) : St σ Data :=
  St.bind (importFieldsS fac rec env ctx c raw (c.loopFields ctx) ⟨ctx.trusted, (rogueKeys ctx c raw).foldl (fun es k => Dict.set es k .rogue) errs0⟩) fun a =>
    St.pure (finishImport c ctx raw a)

/-- The exception of a setter or of the conversion before it (`transforms.py:194-198`): the errors so far, or the exception goes on. -/
def setterError (fd : FieldDef) (es : Errs) (e : Exc) : R Errs :=
  if e.caught then .ok (es.set (.str fd.extName) e.tree)
  else
    match e with
    | .other "AttributeError" => .ok es
    | e => .error e

/-- `field.__set__(mutable, value)` (`transforms.py:193`): the assignments of the setter. -/
def callSetter (fd : FieldDef) (w : Val) : R Data :=
  match fd.fset with
  | some f => f w
  | none => .ok []

/-- Run the setters (`transforms.py:187-198`). -/
def runSettersS (rec : SRec σ) (ctx : Ctx) (raw : Data) (onInst : Bool) : List FieldDef → Errs → Data → St σ (Errs × Data)
  | [], es, d => St.pure (.ok (es, d))
  | fd :: fds, es, d =>
    if (rawValue raw fd.name).isUndef then runSettersS rec ctx raw onInst fds es d
    else
      St.handle (St.bind (rec ctx true fd.field (rawValue raw fd.name)) fun w => St.pure (callSetter fd w))
        (fun asg => runSettersS rec ctx raw onInst fds es (if onInst then d.update asg else d))
        (fun e => St.bind (St.pure (setterError fd es e)) fun es => runSettersS rec ctx raw onInst fds es d)

/-- `_mutate` (`transforms.py:181-200`). -/
def runMutateS (rec : SRec σ) (ctx : Ctx) (c : ClassDef) (mu : Mut) (raw : Data) : St σ MutRes :=
  match mu with
  | .inst d => St.bind (runSettersS rec ctx raw true c.settable [] d) fun r => St.pure (.ok ⟨r.1, r.2, raw.update (c.view r.2)⟩)
  | .same rawIsInst => St.bind (runSettersS rec ctx raw false c.settable [] []) fun r =>
      St.pure (if rawIsInst then .error (.other "AttributeError") else .ok ⟨r.1, raw, raw⟩)

/-- `import_loop` (`transforms.py:25-178`). -/
def importLoopS (fac : Factory σ) (rec : SRec σ) (env : Env) (ctx : Ctx) (c : ClassDef) (mu : Mut) (raw : Data) : St σ Data :=
  if ctx.validate then St.bind (runMutateS rec ctx c mu raw) fun m => importBodyS fac rec env ctx c m.raw m.errs
  else importBodyS fac rec env ctx c raw []

/-- `except DataError as exc: errors.update(exc.errors); data = exc.partial_data` (`validate.py:60-62`). -/
def catchData : Exc → R (Errs × Data)
  | .data es d => .ok (es, d)
  | e => .error e

/-- The end of `validate` (`validate.py:64-69`). -/
def finishValidate (c : ClassDef) (ctx : Ctx) (m : MutRes) (es : Errs) (d : Data) : R Data :=
  match validateModel c m.data ctx.app d with
  | .error e => .error e
  | .ok (es2, d') => if (es.update es2).isEmpty then .ok d' else .error (.data (es.update es2) d')

/-- `validate.validate` (`validate.py:18-69`). -/
def validateFnS (fac : Factory σ) (rec : SRec σ) (env : Env) (ctx : Ctx) (c : ClassDef) (mu : Mut) (raw : Data) : St σ Data :=
  St.bind (runMutateS rec ctx c mu raw) fun m =>
    St.bind (St.handle (importBodyS fac rec env ctx c m.raw m.errs) (fun d => St.pure (.ok (([] : Errs), d))) fun e => St.pure (catchData e)) fun r =>
      St.pure (finishValidate c ctx m r.1 r.2)

/-- The loop of `ListType._convert` (`types/compound.py:225-229`). -/
def listLoopS (f : Val → St σ Val) : Nat → List Val → St σ (List Val × Errs)
  | _, [] => St.pure (.ok ([], []))
  | i, x :: xs =>
    St.handle (f x) (fun y => St.bind (listLoopS f (i + 1) xs) fun r => St.pure (.ok (y :: r.1, r.2))) fun e =>
      if e.caught then St.bind (listLoopS f (i + 1) xs) fun r => St.pure (.ok (r.1, (.int i, e.tree) :: r.2)) else St.pure (.error e)

/-- The end of `ListType._convert` (`types/compound.py:230-232`). -/
def finishList (r : List Val × Errs) : R Val := if r.2.isEmpty then .ok (.list r.1) else .error (.compound r.2)

/-- The key after the value (`types/compound.py:308`). -/
def coerced (coerce : Key → R Key) (k : Key) (y : Val) : R (Key × Val) :=
  match coerce k with
  | .error e => .error e
  | .ok k' => .ok (k', y)

/-- The loop of `DictType._convert` (`types/compound.py:306-310`). -/
def dictLoopS (f : Val → St σ Val) (coerce : Key → R Key) : List (Key × Val) → Data → Errs → St σ (Data × Errs)
  | [], d, es => St.pure (.ok (d, es))
  | (k, x) :: kvs, d, es =>
    St.handle (St.bind (f x) fun y => St.pure (coerced coerce k y)) (fun r => dictLoopS f coerce kvs (d.set r.1 r.2) es) fun e =>
      if e.caught then dictLoopS f coerce kvs d (es.set k e.tree) else St.pure (.error e)

/-- The end of `DictType._convert` (`types/compound.py:311-313`). -/
def finishDict (r : Data × Errs) : R Val := if r.2.isEmpty then .ok (.dict r.1) else .error (.compound r.2)

/-- `model_class(value, context=context)` (`models.py:221-238`, `281-299`). -/
def newInstanceS (fac : Factory σ) (rec : SRec σ) (env : Env) (ctx : Ctx) (c : ClassDef) (raw : Data) : St σ Val :=
  St.bind (if ctx.validate then validateFnS fac rec env ctx c (.inst []) raw else importLoopS fac rec env ctx c (.inst []) raw) fun d => St.pure (.ok (.inst c.name d))

/-- Second half of `ModelType._convert` (`types/compound.py:159-162`). -/
def modelIntoS (fac : Factory σ) (rec : SRec σ) (env : Env) (ctx : Ctx) (c : ClassDef) (raw : Data) (isInst : Bool) : St σ Val :=
  if ctx.convert && ctx.oo then newInstanceS fac rec env ctx c raw
  else St.bind (importLoopS fac rec env ctx c (.same isInst) raw) fun d => St.pure (.ok (.dict d))

/-- `ModelType._convert` (`types/compound.py:150-162`): class, input, whether it is an instance; or an exception. -/
def modelArgs (env : Env) (cls : String) (v : Val) : R (ClassDef × Data × Bool) :=
  match v with
  | .inst c' d =>
    if env.isSub c' cls then
      match env.cls c' with
      | some c => .ok (c, c.view d, true)
      | none => .error (.other "ImportError")
    else convErr "model"
  | .dict d =>
    match env.cls cls with
    | some c => .ok (c, d, false)
    | none => .error (.other "ImportError")
  | _ => convErr "model"

/-- `ModelType._convert` (`types/compound.py:150-162`). -/
def modelConvS (fac : Factory σ) (rec : SRec σ) (env : Env) (ctx : Ctx) (cls : String) (v : Val) : St σ Val :=
  St.bind (St.pure (modelArgs env cls v)) fun r => modelIntoS fac rec env ctx r.1 r.2.1 r.2.2

/-- What a polymorphic field does (`types/compound.py:382-400`): keeps the value, or makes an instance of a class from an input. -/
inductive PolyAct
  | keep (v : Val)
  | make (c : ClassDef) (raw : Data)

/-- `PolyModelType._convert` up to the call of the model class (`types/compound.py:382-400`). -/
def polyArgs (env : Env) (ctx : Ctx) (p : PolySpec) (v : Val) : R PolyAct :=
  if !ctx.validate && p.allowed env v then .ok (.keep v)
  else if !ctx.validate && !v.isDict then convErr "poly"
  else
    match p.findModel env v with
    | .error e => .error e
    | .ok k =>
      match env.cls k with
      | none => .error (.other "ImportError")
      | some c =>
        match v with
        | .dict d => .ok (.make c d)
        | .inst k' d => .ok (.make c (env.view k' d))
        | v => if v.truthy then .error (.other "TypeError") else .ok (.make c [])

/-- `PolyModelType._convert` (`types/compound.py:382-400`). -/
def polyConvS (fac : Factory σ) (rec : SRec σ) (env : Env) (ctx : Ctx) (p : PolySpec) (v : Val) : St σ Val :=
  St.bind (St.pure (polyArgs env ctx p v)) fun
    | .keep v => St.pure (.ok v)
    | .make c raw => newInstanceS fac rec env ctx c raw

/-- `field.convert` (`types/base.py:290-291`, `types/compound.py:49-51`). -/
def convertFS (fac : Factory σ) (rec : SRec σ) (env : Env) (ctx : Ctx) (f : Field) (v : Val) : St σ Val :=
  match f.ty with
  | .leaf l => St.pure (l.toNative ctx.app v)
  | .list inner _ _ =>
    match coerceList env v with
    | none => St.pure (convErr "list")
    | some xs => St.bind (listLoopS (rec ctx false inner) 0 xs) fun r => St.pure (finishList r)
  | .dict inner coerce =>
    match v with
    | .dict kvs => St.bind (dictLoopS (rec ctx false inner) coerce kvs [] []) fun r => St.pure (finishDict r)
    | _ => St.pure (convErr "dict")
  | .model cls => modelConvS fac rec env ctx cls v
  | .poly p => polyConvS fac rec env ctx p v

/-- `BaseType.validate` (`types/base.py:307-333`) or its override. -/
def validateFS (fac : Factory σ) (rec : SRec σ) (env : Env) (ctx : Ctx) (f : Field) (v : Val) : St σ Val :=
  match f.ty.override with
  | some g => St.pure (g ctx.convert ctx.app v)
  | none =>
    if ctx.convert then St.bind (convertFS fac rec env ctx f v) fun w => St.pure (finishValidation ctx.app w f.allValidators)
    else if f.ty.isCompound then St.bind (convertFS fac rec env ctx f v) fun _ => St.pure (finishValidation ctx.app v f.allValidators)
    else St.pure (finishValidation ctx.app v f.allValidators)

/-- `import_converter` / `validation_converter` (`transforms.py:378-391`). -/
def fieldConvFS (fac : Factory σ) (rec : SRec σ) (env : Env) (ctx : Ctx) (named : Bool) (f : Field) (v : Val) : St σ Val :=
  if requiredFails ctx named f v then St.pure (convErr "required")
  else if v.isEmpty then St.pure (.ok v)
  else
    match ctx.conv with
    | .imp => convertFS fac rec env ctx f v
    | .val => validateFS fac rec env ctx f v

/-- The field converter with fuel. -/
def fieldConvS (fac : Factory σ) (env : Env) : Nat → SRec σ
  | 0 => fun _ _ _ _ => St.pure (.error .fuel)
  | n + 1 => fieldConvFS fac (fieldConvS fac env n) env

/-- `schematics.convert`/`import_loop` on a class with an initialised context, callable defaults. -/
def runImportS (fac : Factory σ) (env : Env) (n : Nat) (ctx : Ctx) (c : ClassDef) (mu : Mut) (raw : Data) : St σ Data :=
  importLoopS fac (fieldConvS fac env n) env ctx c mu raw

/-- `schematics.validate` on a class, callable defaults. -/
def runValidateS (fac : Factory σ) (env : Env) (n : Nat) (ctx : Ctx) (c : ClassDef) (mu : Mut) (raw : Data) : St σ Data :=
  validateFnS fac (fieldConvS fac env n) env ctx c mu raw

end Verif
