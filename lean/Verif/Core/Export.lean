import Verif.Core.Import
import Verif.Lib.Role

/-!
# The export engine

Models `transforms.export_loop` (`transforms.py:203-296`), the two export
converters (`transforms.py:363-371`), `BaseType.export`/`get_export_level` and
the `_export` methods of the compound types, with fuel like the import engine.
-/
namespace Verif

/-- `NATIVE` / `PRIMITIVE` (`common.py:12-13`). -/
inductive Fmt
  | native
  | primitive
  deriving DecidableEq, Repr

/-- The `role` argument: a role name or a callable (`transforms.py:254-255`). -/
inductive RoleArg
  | name (s : String)
  | call (f : RoleFn)

/-- Export context (`transforms.py:232-245`). -/
structure ECtx where
  fmt : Fmt := .primitive
  role : Option RoleArg := none
  raiseOnRole : Bool := true
  level : Option Nat := none
  app : Val := .dict []

/-- Export levels (`common.py:15-19`). -/
def DROP : Nat := 0
def NONEMPTY : Nat := 1
def NOT_NONE : Nat := 2
def DEFAULT : Nat := 10
def ALL : Nat := 99

/-- The source of an export: what `mapping[field_name]` reads from. -/
inductive Src
  /-- a model instance: fields read through descriptors, serializables computed -/
  | inst (d : Data)
  /-- a dict -/
  | map (d : Data)
  /-- anything else: every lookup raises (or the mapping is `None`) -/
  | other

/-- `mapping[field_name]`, any exception read as `Undefined`
(`iteration.py:55-66`, `models.py:383-387`, `models.py:46-53`,
`types/serializable.py:80-88`). -/
def Src.read (fd : FieldDef) : Src → Val
  | .inst d =>
    match fd.fget with
    | some g => (g d).getD .undef
    | none => rawValue d fd.name
  | .map d => rawValue d fd.name
  | .other => .undef

/-- `field.get_export_level(context)` (`types/base.py:253-262`); `owner` is the
export level of the owner model. -/
def exportLevelOf (ctx : ECtx) (owner : Nat) (f : Field) : Nat :=
  match ctx.level with
  | some l => l
  | none => (f.o.exportLevel).getD owner

/-- The filter function (`transforms.py:254-261`): `none` = `ValueError`,
`some none` = no filter. -/
def roleFilter (ctx : ECtx) (c : ClassDef) : Option (Option RoleFn) :=
  match ctx.role with
  | some (.call f) => some (some f)
  | some (.name r) =>
    match Dict.get? c.roles r with
    | some f => some (some f)
    | none =>
      if r ≠ "" ∧ ctx.raiseOnRole = true then none
      else some (Dict.get? c.roles "default")
  | none => some (Dict.get? c.roles "default")

/-- `len(value)` of an exported compound value is 0 (`transforms.py:285`,
`types/compound.py:265`, `329`). -/
def emptyCompound (f : Field) (v : Val) : Bool := f.ty.isCompound && pyLen v == 0

/-- Is the (already exported) value left out at level `l`
(`transforms.py:279-287`)? -/
def hidden (l : Nat) (f : Field) (v : Val) : Bool :=
  if v.isUndef then l ≤ DEFAULT
  else if v.isEmpty then l ≤ NOT_NONE
  else if emptyCompound f v then l ≤ NONEMPTY
  else false

/-- `if value is Undefined: value = None` (`transforms.py:289-290`). -/
def nullify (v : Val) : Val := if v.isUndef then .none else v

/-- The recursive call: owner level, field, value (`field.export`). -/
abbrev ERec := Nat → Field → Val → R Val

/-- `filter_func is not None and filter_func(field_name, value)`
(`transforms.py:268`). -/
def skipped : Option RoleFn → String → Val → Bool
  | some g, name, v => g name v
  | none, _, _ => false

/-- One field of the export loop (`transforms.py:265-292`): `none` = not
exported. -/
def exportField (rec : ERec) (ctx : ECtx) (owner : Nat) (flt : Option RoleFn) (src : Src)
    (fd : FieldDef) : R (Option Val) :=
  let v := src.read fd
  if skipped flt fd.name v then .ok none
  else
    let l := exportLevelOf ctx owner fd.field
    if l = DROP then .ok none
    else
      match (if v.isEmpty then .ok v else rec owner fd.field v) with
      | .error e => .error e
      | .ok w => if hidden l fd.field w then .ok none else .ok (some (nullify w))

/-- The loop over the fields (`transforms.py:265-292`). -/
def exportFields (rec : ERec) (ctx : ECtx) (owner : Nat) (flt : Option RoleFn) (src : Src) :
    List FieldDef → Data → R Data
  | [], d => .ok d
  | fd :: fds, d =>
    match exportField rec ctx owner flt src fd with
    | .error e => .error e
    | .ok none => exportFields rec ctx owner flt src fds d
    | .ok (some w) => exportFields rec ctx owner flt src fds (d.set (.str fd.extName) w)

/-- `export_loop` (`transforms.py:203-296`). -/
def exportLoop (rec : ERec) (ctx : ECtx) (c : ClassDef) (src : Src) : R Data :=
  match roleFilter ctx c with
  | none => .error (.other "ValueError")
  | some flt => exportFields rec ctx c.exportLevel flt src c.fields []

/-- `for value in list_instance` (`types/compound.py:260`): the items of an
iterable. Strings iterate as one-character strings, dicts and instances as
their keys. -/
def iterItems (env : Env) : Val → Option (List Val)
  | .list xs => some xs
  | .tuple xs => some xs
  | .bytes bs => some (bs.map fun (b : Nat) => .int (b : Int))
  | .str s => some (s.toList.map fun c => .str (String.singleton c))
  | .dict kvs => some (kvs.map fun kv => match kv.1 with | .str s => .str s | .int i => .int i)
  | .inst c d => some ((env.view c d).map fun kv =>
      match kv.1 with | .str s => .str s | .int i => .int i)
  | _ => none

/-- `iteritems(dict_instance)` (`types/compound.py:324`).  `Model.items()` gives
the stored values of its iterated keys (`models.py:336-337`). -/
def iterPairs (env : Env) : Val → Option (List (Key × Val))
  | .dict kvs => some kvs
  | .inst c d => some ((env.view c d).map fun kv => (kv.1, (Dict.get? d kv.1).getD .undef))
  | _ => none

/-- The test of the element loops (`types/compound.py:262-267`, `326-331`). -/
def hiddenItem (l : Nat) (f : Field) (v : Val) : Bool :=
  match v with
  | .none => l ≤ NOT_NONE
  | v => emptyCompound f v && l ≤ NONEMPTY

/-- Loop of `ListType._export` (`types/compound.py:260-268`). -/
def exportItems (f : Val → R Val) (hide : Val → Bool) : List Val → R (List Val)
  | [] => .ok []
  | x :: xs =>
    match f x with
    | .error e => .error e
    | .ok y =>
      match exportItems f hide xs with
      | .error e => .error e
      | .ok ys => if hide y then .ok ys else .ok (y :: ys)

/-- Loop of `DictType._export` (`types/compound.py:324-332`). -/
def exportPairs (f : Val → R Val) (hide : Val → Bool) : List (Key × Val) → R Data
  | [] => .ok []
  | (k, x) :: xs =>
    match f x with
    | .error e => .error e
    | .ok y =>
      match exportPairs f hide xs with
      | .error e => .error e
      | .ok ys => if hide y then .ok ys else .ok ((k, y) :: ys)

/-- Export of a class instance or mapping as a value. -/
def exportModel (rec : ERec) (ctx : ECtx) (c : ClassDef) (src : Src) : R Val :=
  match exportLoop rec ctx c src with
  | .error e => .error e
  | .ok d => .ok (.dict d)

/-- `field.export(value, format, context)` (`types/base.py:293-294`,
`types/compound.py:164-169`, `251-269`, `315-333`, `435-441`). -/
def exportF (rec : ERec) (env : Env) (ctx : ECtx) (owner : Nat) (f : Field) (v : Val) : R Val :=
  match f.ty with
  | .leaf l =>
    match ctx.fmt with
    | .native => l.toNative ctx.app v
    | .primitive => l.toPrimitive ctx.app v
  | .list inner _ _ =>
    let l := exportLevelOf ctx owner inner
    if l = DROP then .ok (.list [])
    else
      match iterItems env v with
      | none => .error (.other "TypeError")
      | some xs =>
        match exportItems (rec owner inner) (hiddenItem l inner) xs with
        | .error e => .error e
        | .ok ys => .ok (.list ys)
  | .dict inner _ =>
    let l := exportLevelOf ctx owner inner
    if l = DROP then .ok (.dict [])
    else
      match iterPairs env v with
      | none => .error (.other "AttributeError")
      | some xs =>
        match exportPairs (rec owner inner) (hiddenItem l inner) xs with
        | .error e => .error e
        | .ok ys => .ok (.dict ys)
  | .model cls =>
    match v with
    | .inst k d =>
      match env.cls k with
      | some c => exportModel rec ctx c (.inst d)
      | none => .error (.other "ImportError")
    | .dict d =>
      match env.cls cls with
      | some c => exportModel rec ctx c (.map d)
      | none => .error (.other "ImportError")
    | _ =>
      match env.cls cls with
      | some c => exportModel rec ctx c .other
      | none => .error (.other "ImportError")
  | .poly p =>
    if p.allowed env v then
      match v with
      | .inst k d =>
        match env.cls k with
        | some c => exportModel rec ctx c (.inst d)
        | none => .error (.other "ImportError")
      | _ => .error (.other "Exception")
    else .error (.other "Exception")

/-- `field.export` with fuel. -/
def fieldExport (env : Env) (ctx : ECtx) : Nat → ERec
  | 0 => fun _ _ _ => .error .fuel
  | n + 1 => exportF (fieldExport env ctx n) env ctx

/-- `to_primitive` / `to_native` (`transforms.py:431-436`) on a class. -/
def runExport (env : Env) (n : Nat) (ctx : ECtx) (c : ClassDef) (src : Src) : R Data :=
  exportLoop (fieldExport env ctx n) ctx c src

end Verif
