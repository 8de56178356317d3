import Verif.Py.Text

/-!
# `import_string` and model references by name (`util.py:129-174`, `types/compound.py:88-138`)

Objects (modules, classes, anything a module may hold) are numbers.  What the import system would do at some moment is a `Modules`: which dotted names can be imported, and which attributes
objects have.  It is arbitrary and may change from one call to the next, but not during one call of `import_string`.
-/
namespace Verif.ImportString

/-- Any Python object. -/
abbrev Obj := Nat

/-- What `__import__(name)` does. -/
inductive Imp
  /-- it succeeds; the object is `sys.modules[name]` -/
  | ok (m : Obj)
  /-- `ImportError` -/
  | missing
  /-- any other exception -/
  | raised (e : String)
deriving DecidableEq, Repr

/-- The import system and the attributes of objects, at some moment. -/
structure Modules where
  /-- `__import__` of a dotted name, given as its parts -/
  load : List String → Imp
  /-- `getattr`; `none` is `AttributeError` -/
  attr : Obj → String → Option Obj

/-- Result of `import_string`. -/
inductive Found
  /-- an object -/
  | obj (o : Obj)
  /-- `ImportStringError` -/
  | notFound
  /-- any other exception -/
  | raised (e : String)
deriving DecidableEq, Repr

/-- `getattr(module, obj_name)`, with `AttributeError` turned into `ImportError` (`util.py:163-166`); errors of the import pass. -/
def getAttr (M : Modules) (name : String) : Found → Found
  | .obj m =>
    match M.attr m name with
    | some o => .obj o
    | none => .notFound
  | r => r

/-- The module that must have the last part as an attribute: `__import__(module_name)`, or `import_string(module_name)` if that fails (`util.py:156-161`). -/
def parent (M : Modules) (name : List String) (inner : Found) : Found :=
  match M.load name with
  | .ok m => .obj m
  | .missing => inner
  | .raised e => .raised e

/-- `import_string` of a dotted name given by its parts, the last one first (`util.py:147-174`). -/
def importRev (M : Modules) : List String → Found
  | [] => .raised "ValueError"
  | p :: ps =>
    match M.load (ps.reverse ++ [p]) with
    | .ok m => .obj m
    | .raised e => .raised e
    | .missing => if ps.isEmpty then .notFound else getAttr M p (parent M ps.reverse (importRev M ps))

/-- `str.split('.')` -/
def splitDots : List Char → List (List Char)
  | [] => [[]]
  | c :: cs =>
    if c = '.' then [] :: splitDots cs
    else
      match splitDots cs with
      | p :: ps => (c :: p) :: ps
      | [] => [[c]]

/-- `import_name.replace(':', '.')` (`util.py:147`). -/
def colonsToDots (cs : List Char) : List Char := cs.map fun c => if c = ':' then '.' else c

/-- The parts of an import name. -/
def parts (name : String) : List String := (splitDots (colonsToDots name.toList)).map String.ofList

/-- `import_string(name)` (`util.py:129-174`). -/
def importString (M : Modules) (name : String) : Found := importRev M (parts name).reverse

/-! ## References -/

/-- A `ModelType`: `_model_class` and `model_name` (`types/compound.py:110-125`). -/
structure Ref where
  name : String
  cls : Option Obj := none
deriving DecidableEq, Repr

/-- `bool(_model_class)`: `None` and false objects count as unresolved (`types/compound.py:103`, `135`). -/
def Ref.resolved (truthy : Obj → Bool) (r : Ref) : Option Obj :=
  match r.cls with
  | some o => if truthy o then some o else none
  | none => none

/-- `ModelType.model_class` (`types/compound.py:101-108`): the result and the reference afterwards. -/
def Ref.use (truthy : Obj → Bool) (M : Modules) (r : Ref) : Found × Ref :=
  match r.resolved truthy with
  | some o => (.obj o, r)
  | none =>
    match importString M r.name with
    | .obj o => (.obj o, { r with cls := some o })
    | .notFound => (.notFound, r)
    | .raised e => (.raised e, r)

/-- `ModelType._setup` (`types/compound.py:133-138`). -/
def Ref.setup (truthy : Obj → Bool) (ownerName : String) (owner : Obj) (r : Ref) : Ref :=
  if (r.resolved truthy).isNone && r.name == ownerName then { r with cls := some owner } else r

/-- What happens to references: all references of a program are numbered. -/
inductive Event
  /-- `ModelType('name')` -/
  | byName (name : String)
  /-- `ModelType(SomeModel)` -/
  | byClass (name : String) (c : Obj)
  /-- a model class with this reference as (part of) a field is created (`models.py:119-121`, `schema.py:28-30`, `types/compound.py:133-138`) -/
  | setup (i : Nat) (ownerName : String) (owner : Obj)
  /-- a subclass copies the reference (`models.py:89`, `types/base.py:229-230`) -/
  | copy (i : Nat)
  /-- the reference is needed, while the import system is like this -/
  | use (i : Nat) (M : Modules)

/-- The references of a program after an event. -/
def step (truthy : Obj → Bool) (rs : List Ref) : Event → List Ref
  | .byName n => rs ++ [⟨n, none⟩]
  | .byClass n c => rs ++ [⟨n, some c⟩]
  | .setup i on o => rs.modify i (Ref.setup truthy on o)
  | .copy i =>
    match rs[i]? with
    | some r => rs ++ [r]
    | none => rs
  | .use i M => rs.modify i fun r => (r.use truthy M).2

/-- The references of a program after a history. -/
def run (truthy : Obj → Bool) (rs : List Ref) (es : List Event) : List Ref := es.foldl (step truthy) rs

/-- What `model_class` gives. -/
def ask (truthy : Obj → Bool) (rs : List Ref) (i : Nat) (M : Modules) : Option Found :=
  match rs[i]? with
  | some r => some (r.use truthy M).1
  | none => none

end Verif.ImportString
