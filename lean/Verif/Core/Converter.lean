import Verif.Core.Export

/-!
# Custom field converters

`Model.export(field_converter=...)` (`models.py:301-303`) runs the export loop with a converter supplied by the caller (`transforms.py:337-355`): `pre` before the fields of a
model are read, `__call__` for its fields, `post` on the resulting dict.  The engine of `Core/Export.lean` is the special case of the two standard converters.

Converters may have effects: they are state transformers over an arbitrary state `σ`.
-/
namespace Verif

/-- A computation with effects on `σ` that may raise. -/
abbrev St (σ α : Type) := σ → R α × σ

/-- A value, no effect. -/
def St.pure (r : R α) : St σ α := fun s => (r, s)

/-- One computation after the other; an exception ends it. -/
def St.bind (m : St σ α) (k : α → St σ β) : St σ β := fun s =>
  match m s with
  | (.error e, s) => (.error e, s)
  | (.ok a, s) => k a s

/-- `field.export(value, format, context)` as a converter can call it. -/
abbrev XRec (σ : Type) := Fmt → Nat → Field → Val → St σ Val

/-- A converter (`transforms.py:337-355`).  `call` gets `field.export` for its field, the field and the value. -/
structure Converter (σ : Type) where
  call : (Fmt → Val → St σ Val) → ClassDef → FieldDef → Val → St σ Val
  pre : ClassDef → Src → St σ Src := fun _ src => St.pure (.ok src)
  post : ClassDef → Data → St σ Val := fun _ d => St.pure (.ok (.dict d))

/-- `BasicConverter` of a function (`transforms.py:349-355`). -/
def Converter.basic (f : (Fmt → Val → St σ Val) → ClassDef → FieldDef → Val → St σ Val) : Converter σ := { call := f }

/-- `to_native_converter`, `to_primitive_converter` (`transforms.py:363-371`). -/
def Converter.standard (fmt : Fmt) : Converter σ := .basic fun ex _ _ v => ex fmt v

/-- `len(value)`: `none` is `TypeError` (`transforms.py:285`, `types/compound.py:265`, `329`). -/
def sized : Val → Option Nat
  | .list xs => some xs.length
  | .tuple xs => some xs.length
  | .dict kvs => some kvs.length
  | .inst _ d => some d.length
  | .str s => some s.length
  | .bytes bs => some bs.length
  | _ => none

/-- The tests on a converted value (`transforms.py:279-287`): whether it is left out; `len` may raise. -/
def hiddenX (l : Nat) (f : Field) (v : Val) : R Bool :=
  if v.isUndef then .ok (l ≤ DEFAULT)
  else if v.isEmpty then .ok (l ≤ NOT_NONE)
  else if f.ty.isCompound then
    match sized v with
    | none => .error (.other "TypeError")
    | some n => .ok (n == 0 && l ≤ NONEMPTY)
  else .ok false

/-- The tests on an element (`types/compound.py:262-267`, `326-331`). -/
def hiddenItemX (l : Nat) (f : Field) (v : Val) : R Bool :=
  match v with
  | .none => .ok (l ≤ NOT_NONE)
  | v =>
    if f.ty.isCompound then
      match sized v with
      | none => .error (.other "TypeError")
      | some n => .ok (n == 0 && l ≤ NONEMPTY)
    else .ok false

/-- What becomes of the converted value of a field. -/
def keepX (l : Nat) (f : Field) (w : Val) : R (Option Val) :=
  match hiddenX l f w with
  | .error e => .error e
  | .ok true => .ok none
  | .ok false => .ok (some (nullify w))

/-- One field of the loop (`transforms.py:265-292`). -/
def exportFieldX (cv : Converter σ) (rec : XRec σ) (ctx : ECtx) (c : ClassDef) (flt : Option RoleFn) (src : Src) (fd : FieldDef) : St σ (Option Val) :=
  if skipped flt fd.name (src.read fd) then St.pure (.ok none)
  else if exportLevelOf ctx c.exportLevel fd.field = DROP then St.pure (.ok none)
  else St.bind (if (src.read fd).isEmpty then St.pure (.ok (src.read fd)) else cv.call (fun fmt v => rec fmt c.exportLevel fd.field v) c fd (src.read fd)) fun w =>
    St.pure (keepX (exportLevelOf ctx c.exportLevel fd.field) fd.field w)

/-- `data[serialized_name] = value`, if the value is not left out. -/
def putX (fd : FieldDef) (d : Data) : Option Val → Data
  | none => d
  | some w => d.set (.str fd.extName) w

/-- The loop (`transforms.py:265-292`). -/
def exportFieldsX (cv : Converter σ) (rec : XRec σ) (ctx : ECtx) (c : ClassDef) (flt : Option RoleFn) (src : Src) : List FieldDef → Data → St σ Data
  | [], d => St.pure (.ok d)
  | fd :: fds, d => St.bind (exportFieldX cv rec ctx c flt src fd) fun o => exportFieldsX cv rec ctx c flt src fds (putX fd d o)

/-- The loop after `pre`, with the lookup of the role (`transforms.py:249-292`). -/
def exportBodyX (cv : Converter σ) (rec : XRec σ) (ctx : ECtx) (c : ClassDef) (src : Src) : St σ Data :=
  match roleFilter ctx c with
  | none => St.pure (.error (.other "ValueError"))
  | some flt => exportFieldsX cv rec ctx c flt src c.fields []

/-- `export_loop` (`transforms.py:203-296`): `pre`, the fields, `post`. -/
def exportLoopX (cv : Converter σ) (rec : XRec σ) (ctx : ECtx) (c : ClassDef) (src : Src) : St σ Val :=
  St.bind (cv.pre c src) fun src => St.bind (exportBodyX cv rec ctx c src) fun d => cv.post c d

/-- Loop of `ListType._export` (`types/compound.py:260-268`): the test of an element comes before the next element. -/
def exportItemsX (f : Val → St σ Val) (hide : Val → R Bool) : List Val → St σ (List Val)
  | [] => St.pure (.ok [])
  | x :: xs => St.bind (f x) fun y => St.bind (St.pure (hide y)) fun h =>
      St.bind (exportItemsX f hide xs) fun ys => St.pure (.ok (if h then ys else y :: ys))

/-- Loop of `DictType._export` (`types/compound.py:324-332`). -/
def exportPairsX (f : Val → St σ Val) (hide : Val → R Bool) : List (Key × Val) → St σ Data
  | [] => St.pure (.ok [])
  | (k, x) :: xs => St.bind (f x) fun y => St.bind (St.pure (hide y)) fun h =>
      St.bind (exportPairsX f hide xs) fun ys => St.pure (.ok (if h then ys else (k, y) :: ys))

/-- The class and source of a nested model (`types/compound.py:164-169`, `435-441`): the exception if there is none. -/
def nested (env : Env) (f : FType) (v : Val) : R (ClassDef × Src) :=
  match f with
  | .model cls =>
    match v with
    | .inst k d => match env.cls k with
      | some c => .ok (c, .inst d)
      | none => .error (.other "ImportError")
    | .dict d => match env.cls cls with
      | some c => .ok (c, .map d)
      | none => .error (.other "ImportError")
    | _ => match env.cls cls with
      | some c => .ok (c, .other)
      | none => .error (.other "ImportError")
  | .poly p =>
    if p.allowed env v then
      match v with
      | .inst k d => match env.cls k with
        | some c => .ok (c, .inst d)
        | none => .error (.other "ImportError")
      | _ => .error (.other "Exception")
    else .error (.other "Exception")
  | _ => .error (.other "Exception")

/-- The class and source that were found, exported. -/
def nestedX (cv : Converter σ) (rec : XRec σ) (ctx : ECtx) : R (ClassDef × Src) → St σ Val
  | .error e => St.pure (.error e)
  | .ok (c, src) => exportLoopX cv rec ctx c src

/-- The exported value of a simple type (`types/base.py:293-294`). -/
def leafX (l : Leaf) (app v : Val) : Fmt → R Val
  | .native => l.toNative app v
  | .primitive => l.toPrimitive app v

/-- The items of a list, exported. -/
def listX (rec : XRec σ) (fmt : Fmt) (owner l : Nat) (inner : Field) : Option (List Val) → St σ Val
  | none => St.pure (.error (.other "TypeError"))
  | some xs => St.bind (exportItemsX (rec fmt owner inner) (hiddenItemX l inner) xs) fun ys => St.pure (.ok (.list ys))

/-- The pairs of a dict, exported. -/
def dictX (rec : XRec σ) (fmt : Fmt) (owner l : Nat) (inner : Field) : Option (List (Key × Val)) → St σ Val
  | none => St.pure (.error (.other "AttributeError"))
  | some xs => St.bind (exportPairsX (rec fmt owner inner) (hiddenItemX l inner) xs) fun ys => St.pure (.ok (.dict ys))

/-- `field.export(value, format, context)` (`types/base.py:293-294`, `types/compound.py:164-169`, `251-269`, `315-333`, `435-441`): elements of lists and dicts are exported
directly, nested models through the converter of the context. -/
def exportFX (cv : Converter σ) (rec : XRec σ) (env : Env) (ctx : ECtx) (fmt : Fmt) (owner : Nat) (f : Field) (v : Val) : St σ Val :=
  match f.ty with
  | .leaf l => St.pure (leafX l ctx.app v fmt)
  | .list inner _ _ =>
    if exportLevelOf ctx owner inner = DROP then St.pure (.ok (.list []))
    else listX rec fmt owner (exportLevelOf ctx owner inner) inner (iterItems env v)
  | .dict inner _ =>
    if exportLevelOf ctx owner inner = DROP then St.pure (.ok (.dict []))
    else dictX rec fmt owner (exportLevelOf ctx owner inner) inner (iterPairs env v)
  | .model cls => nestedX cv rec ctx (nested env (.model cls) v)
  | .poly p => nestedX cv rec ctx (nested env (.poly p) v)

/-- `field.export` with fuel. -/
def fieldExportX (cv : Converter σ) (env : Env) (ctx : ECtx) : Nat → XRec σ
  | 0 => fun _ _ _ _ => St.pure (.error .fuel)
  | n + 1 => exportFX cv (fieldExportX cv env ctx n) env ctx

/-- `instance.export(field_converter=cv)` (`models.py:301-303`). -/
def runExportX (cv : Converter σ) (env : Env) (n : Nat) (ctx : ECtx) (c : ClassDef) (src : Src) : St σ Val :=
  exportLoopX cv (fieldExportX cv env ctx n) ctx c src

/-- The `field_converter` argument (`transforms.py:236-240`). -/
inductive ConvArg (σ : Type)
  /-- the default of `Model.export` -/
  | none
  /-- a function: `type(field_converter) is types.FunctionType` -/
  | func (f : (Fmt → Val → St σ Val) → ClassDef → FieldDef → Val → St σ Val)
  /-- an instance of `Converter` -/
  | conv (cv : Converter σ)
  /-- another callable, such as a bound method, a `functools.partial` or a class, without a `pre` -/
  | callable

/-- `Model.export` (`models.py:301-303`, `transforms.py:236-247`): whatever is no function is used as a converter object. -/
def modelExport (a : ConvArg σ) (env : Env) (n : Nat) (ctx : ECtx) (c : ClassDef) (src : Src) : St σ Val :=
  match a with
  | .func f => runExportX (.basic f) env n ctx c src
  | .conv cv => runExportX cv env n ctx c src
  | .none => St.pure (.error (.other "AttributeError"))
  | .callable => St.pure (.error (.other "AttributeError"))

end Verif
