import Verif.Py.Dict

/-!
# Model options in full: `SchemaOptions` (`schema.py:33-58`), their inheritance (`models.py:82-91`, `124-145`) and `__optionsclass__`

`Lib/Meta` has options as a record of values.  Here an options object is a Python object with arbitrary attributes, and dicts (`roles`, `extras`) are objects that classes may share.
-/
namespace Verif.Options

/-- Any Python object, as far as options look at it. -/
inductive V
  | none
  | bool (b : Bool)
  | num (n : Int)
  /-- a dict object -/
  | dct (a : Nat)
  /-- anything else; it is true -/
  | other (n : Nat)
deriving DecidableEq, Repr

/-- Attributes of an object, or items of a dict with text keys. -/
abbrev Attrs := Dict String V

/-- The dict objects of a program, and the attributes of `_schema.options` of its model classes. -/
structure World where
  dicts : List Attrs := []
  classes : List Attrs := []
deriving DecidableEq, Repr

/-- `TypeError` or `AttributeError`. -/
inductive Err
  | type
  | attribute
deriving DecidableEq, Repr

/-- `key.startswith("_")` -/
def hidden (k : String) : Bool := k.toList.head? == some '_'

/-- `key.startswith("__")` -/
def dunder (k : String) : Bool := k.toList.take 2 == ['_', '_']

/-- `dict(options)` (`schema.py:55-58`): the attributes whose names do not start with an underscore.  (Methods of the class are not modelled: their names start with an underscore.) -/
def visible (o : Attrs) : Attrs := o.filter fun p => !hidden p.1

/-- `options_members` after the bases, given in the order of the loop, that is reversed (`models.py:87-90`). -/
def inherit (cs : List Attrs) (acc : Attrs) : List Nat → Attrs
  | [] => acc
  | b :: r =>
    match cs[b]? with
    | some o => inherit cs (acc.update (visible o)) r
    | none => inherit cs acc r

/-- The items of a dict object; nothing at all counts as `{}`. -/
def items (ds : List Attrs) : Option V → Option Attrs
  | none => some []
  | some (.dct a) => ds[a]?
  | some _ => none

/-- One member of the class `Options` (`models.py:131-144`); a `roles` that is no dict raises `TypeError`. -/
def member (ds : List Attrs) (m : Attrs) (k : String) (v : V) : Except Err (List Attrs × Attrs) :=
  if dunder k then .ok (ds, m)
  else if hidden k then
    match items ds (m.get? "extras") with
    | some d => .ok (ds ++ [d.set k v], m.set "extras" (.dct ds.length))
    | none => .error .attribute
  else if k = "roles" then
    match items ds (m.get? "roles"), items ds (some v) with
    | some d, some e => .ok (ds ++ [d.update e], m.set "roles" (.dct ds.length))
    | none, _ => .error .attribute
    | some _, none => .error .type
  else .ok (ds, m.set k v)

/-- The members of the class `Options`, in the order of `inspect.getmembers` (by name). -/
def members (ds : List Attrs) (m : Attrs) : List (String × V) → Except Err (List Attrs × Attrs)
  | [] => .ok (ds, m)
  | p :: r =>
    match member ds m p.1 p.2 with
    | .ok (ds, m) => members ds m r
    | .error e => .error e

/-- The keyword arguments of `SchemaOptions` (`schema.py:35-36`). -/
def known : List String := ["namespace", "roles", "export_level", "serialize_when_none", "export_order", "extras"]

/-- `bool(v)` -/
def truthy (ds : List Attrs) : V → Bool
  | .none => false
  | .bool b => b
  | .num n => n != 0
  | .dct a => ds[a]? != some []
  | .other _ => true

/-- `v or {}` -/
def orNew (ds : List Attrs) : Option V → List Attrs × V
  | some v => if truthy ds v then (ds, v) else (ds ++ [[]], .dct ds.length)
  | none => (ds ++ [[]], .dct ds.length)

/-- `export_level` and `serialize_when_none` (`schema.py:39-43`). -/
def level (m : Attrs) : V :=
  match m.get? "serialize_when_none" with
  | some (.bool true) => .num 10
  | some (.bool false) => .num 1
  | _ => (m.get? "export_level").getD (.num 10)

/-- The attributes set before the loop over `extras` (`schema.py:37-45`). -/
def plainAttrs (m : Attrs) (roles extras : V) : Attrs :=
  [("namespace", (m.get? "namespace").getD .none), ("roles", roles), ("export_level", level m), ("export_order", (m.get? "export_order").getD (.bool false)), ("extras", extras)]

/-- `options_class(**options_members)` (`models.py:145`, `schema.py:35-48`).  `more` are the additional keyword arguments of a class given as `__optionsclass__`, with their defaults; such a
class is taken to hand the others on to `SchemaOptions` and to keep its own as attributes. -/
def init (more : Attrs) (ds : List Attrs) (m : Attrs) : Except Err (List Attrs × Attrs) :=
  if m.keys.all fun k => known.contains k || more.has k then
    match items (orNew (orNew ds (m.get? "roles")).1 (m.get? "extras")).1 (some (orNew (orNew ds (m.get? "roles")).1 (m.get? "extras")).2) with
    | none => .error .attribute
    | some x => .ok ((orNew (orNew ds (m.get? "roles")).1 (m.get? "extras")).1,
        ((plainAttrs m (orNew ds (m.get? "roles")).2 (orNew (orNew ds (m.get? "roles")).1 (m.get? "extras")).2).update x).update
          (more.map fun p => (p.1, (m.get? p.1).getD p.2)))
  else .error .type

/-- A class statement: `bases` from left to right, the members of `Options` if the body has it (`models.py:78-122` as far as options go). -/
def define (w : World) (bases : List Nat) (body : Option (List (String × V))) (more : Attrs) : Except Err World :=
  match members w.dicts (inherit w.classes [] bases.reverse) (body.getD []) with
  | .error e => .error e
  | .ok (ds, m) =>
    match init more ds m with
    | .error e => .error e
    | .ok (ds, o) => .ok { dicts := ds, classes := w.classes ++ [o] }

/-- What happens in a program. -/
inductive Event
  | define (bases : List Nat) (body : Option (List (String × V))) (more : Attrs)
  /-- the program makes a dict -/
  | make (d : Attrs)
  /-- the program changes a dict: `d[k] = v` -/
  | put (a : Nat) (k : String) (v : V)

/-- A class statement that fails changes nothing. -/
def step (w : World) : Event → World
  | .define bases body more =>
    match define w bases body more with
    | .ok w' => w'
    | .error _ => w
  | .make d => { w with dicts := w.dicts ++ [Dict.update [] d] }
  | .put a k v => { w with dicts := w.dicts.modify a fun d => d.set k v }

/-- `class Model(metaclass=ModelMeta)` itself has no base (`models.py:196-200`). -/
def start : World := step {} (.define [] none [])

/-- The program after some events. -/
def run (es : List Event) : World := es.foldl step start

end Verif.Options
