import Verif.Core.Export
import Verif.Types.Misc

/-!
# Unions with compound members (`types/union.py`)

`Types/Misc` models a union of scalar types.  Here the members are arbitrary fields, lists, dicts, models and polymorphic models included;
the methods of the members are those of `Core/Import` and `Core/Export`.
-/
namespace Verif.Types

/-- A member of a union: a type object and its class. -/
structure UMember where
  cls : String
  field : Field

/-- `self._types[type_.__class__] = type_` for each given type (`types/union.py:50-57`). -/
def uMembers (given : List UMember) : List UMember :=
  (given.foldl (fun (d : Dict String UMember) m => d.set m.cls m) []).map Prod.snd

/-- What a `resolver` may return (`types/union.py:70-80`): nothing usable, a type class, or the pair of a type and the converted value. -/
inductive Response
  | nothing
  | cls (c : String)
  | pair (m : UMember) (w : Val)

/-- `UnionType.resolve` (`types/union.py:60-68`). `conv` is `field.convert(value, context)`. -/
def uFirst (conv : Field → Val → R Val) (v : Val) : List UMember → R (Option (UMember × Val))
  | [] => .ok none
  | m :: ms =>
    match conv m.field v with
    | .ok w => .ok (some (m, w))
    | .error (.field .conv _) => uFirst conv v ms
    | .error e => .error e

/-- `UnionType._resolve` (`types/union.py:70-80`) without a resolver. -/
def uResolve (conv : Field → Val → R Val) (ms : List UMember) (v : Val) : R (UMember × Val) :=
  match uFirst conv v ms with
  | .error e => .error e
  | .ok (some r) => .ok r
  | .ok none => convErr "convert"

/-- `UnionType._resolve` (`types/union.py:70-80`) with the answer of a resolver. A class that is no member raises `KeyError`. -/
def uResolveBy (conv : Field → Val → R Val) (ms : List UMember) (v : Val) : Response → R (UMember × Val)
  | .nothing => convErr "convert"
  | .pair m w => .ok (m, w)
  | .cls c =>
    match ms.find? fun m => m.cls == c with
    | none => .error (.other "KeyError")
    | some m =>
      match conv m.field v with
      | .ok w => .ok (m, w)
      | .error (.field .conv _) => convErr "convert"
      | .error e => .error e

/-- `UnionType(types, resolver)` (`types/union.py:36-58`): the types given and the optional resolver. -/
structure UnionSpec where
  given : List UMember
  resolver : Option (Val → Response) := none

/-- `UnionType._resolve` (`types/union.py:70-80`). -/
def UnionSpec.resolve (u : UnionSpec) (conv : Field → Val → R Val) (v : Val) : R (UMember × Val) :=
  match u.resolver with
  | none => uResolve conv (uMembers u.given) v
  | some f => uResolveBy conv (uMembers u.given) v (f v)

/-- `UnionType.convert` (`types/union.py:82-85`) in an import context. -/
def UnionSpec.convert (u : UnionSpec) (rec : Rec) (env : Env) (ctx : Ctx) (v : Val) : R Val :=
  match u.resolve (convertF rec env ctx) v with
  | .error e => .error e
  | .ok (_, w) => .ok w

/-- `UnionType.validate` (`types/union.py:87-89`). -/
def UnionSpec.validate (u : UnionSpec) (rec : Rec) (env : Env) (ctx : Ctx) (v : Val) : R Val :=
  match u.resolve (convertF rec env ctx) v with
  | .error e => .error e
  | .ok (m, _) => validateF rec env ctx m.field v

/-- `field.convert(value, context)` of a member when `context` is an *export* context (`types/union.py:63`, `95-101`).  The items of lists and
dicts go through `context.field_converter`, which exports them (`types/compound.py:227`, `308`, `transforms.py:363-371`); `ModelType` and
`PolyModelType` look at `context.convert` and `context.validate`, which an export context does not have (`types/compound.py:159`, `387`,
`transforms.py:236-245`).  The members of a union are never set up, so the level of their owner is `DEFAULT` (`types/base.py:253-257`). -/
def exportConv (erec : ERec) (env : Env) (ectx : ECtx) (f : Field) (v : Val) : R Val :=
  match f.ty with
  | .leaf l => l.toNative ectx.app v
  | .list inner _ _ =>
    match coerceList env v with
    | none => convErr "list"
    | some xs => listConv (erec DEFAULT inner) xs
  | .dict inner coerce =>
    match v with
    | .dict kvs => dictConv (erec DEFAULT inner) coerce kvs
    | _ => convErr "dict"
  | .model cls =>
    match env.cls cls with
    | none => .error (.other "ImportError")
    | some _ =>
      match v with
      | .inst c' _ => if env.isSub c' cls then .error (.other "AttributeError") else convErr "model"
      | .dict _ => .error (.other "AttributeError")
      | _ => convErr "model"
  | .poly _ =>
    match v with
    | .none => .ok .none
    | _ => .error (.other "AttributeError")

/-- `UnionType.export` (`types/base.py:293-294` with `types/union.py:95-101`): the member found in the export context exports the value
(`types/compound.py:62-69` for compound members). -/
def UnionSpec.export (u : UnionSpec) (erec : ERec) (env : Env) (ectx : ECtx) (v : Val) : R Val :=
  match u.resolve (exportConv erec env ectx) v with
  | .error e => .error e
  | .ok (m, _) => exportF erec env ectx DEFAULT m.field v

end Verif.Types
