import Verif.Py.Dict
import Verif.Py.Val

/-!
# Which objects a converted or exported value shares

`Core/Import` and `Core/Export` treat values as trees.  Here they are objects in a heap, with identity: lists, dicts and model instances can be changed in place and
can be shared — inside the input, between two inputs, and through the `default` object of a field, which exists once per field.  The model follows the same code as
`Core/Import` and `Core/Export`, restricted to what decides which object ends up where.

Simplifications: a new container is given its address after its items have been built (Python creates the empty list first and appends to it; the difference cannot be
seen, since nobody else holds it); an instance is one object, its class and the entries of its data layers (`Core/Alias` has the layers); fields with getters or setters, key
mappings and trusted data are left out; a validator is a predicate on the heap.  Iterables other than lists are left out (a generator is consumed by the conversion).
-/
namespace Verif.Fresh
open Verif

/-- An object.  Atoms are the immutable ones: `None`, numbers, strings, dates, tuples of them, … -/
inductive Obj
  | atom (v : Val)
  | list (items : List Nat)
  | dict (es : List (Key × Nat))
  | inst (cls : String) (es : List (Key × Nat))

/-- The objects it refers to. -/
def Obj.kids : Obj → List Nat
  | .atom _ => []
  | .list xs => xs
  | .dict es => es.map Prod.snd
  | .inst _ es => es.map Prod.snd

/-- Immutable? -/
def Obj.isAtom : Obj → Bool
  | .atom _ => true
  | _ => false

/-- Is it the object `None`? -/
def Obj.isNone : Obj → Bool
  | .atom .none => true
  | _ => false

/-- The objects that exist; an address is a position. -/
abbrev Heap := List Obj

/-- The object at an address. -/
def Heap.obj (h : Heap) (a : Nat) : Obj := (h[a]?).getD (.atom .none)

/-- What the conversion of a value gives: the address of the result; an error; or an error with partial data
(`DataError.partial_data`, `exceptions.py:185-199`). -/
inductive Res
  | ok (a : Nat)
  | err
  | data (part : Nat)

/-- A new object. -/
def Heap.new (h : Heap) (o : Obj) : Heap × Res := (h ++ [o], .ok h.length)

/-- A leaf type's conversion (`BaseType.to_native` and its overrides): it fails, hands back the object it was given, or makes a new immutable object. -/
inductive Leaf
  | fail
  | keep
  | make (v : Val)

/-- Types.  `cls` names a model class. -/
inductive Ty
  /-- `BaseType` and its subclasses that are not compound: what `to_native` and what the export method does with an object. -/
  | leaf (conv exp : Obj → Leaf)
  /-- `t`: the type of the items; whether they are required, and their validators. -/
  | list (t : Ty) (required : Bool) (valid : Heap → Nat → Bool)
  | dict (t : Ty) (required : Bool) (valid : Heap → Nat → Bool) (coerce : Key → Option Key)
  | model (cls : String)
  | poly (classes : List String) (sub : Bool)

/-- `BaseType.default` (`types/base.py:255-260`): nothing, one object for all, or a callable that makes a new object. -/
inductive Dflt
  | none
  | obj (a : Nat)
  | call (o : Obj)

/-- A field of a model.  `keys`: `BaseType._get_input_keys` (`types/base.py:244-253`), the name first; `valid`: the validators of the field. -/
structure Fld where
  name : String
  keys : List Key
  ty : Ty
  required : Bool
  dflt : Dflt
  valid : Heap → Nat → Bool
  drop : Bool

/-- The classes: fields, `isinstance` between them, and `find_model` (`types/compound.py:402-433`) of a polymorphic type. -/
structure Env where
  fields : String → Option (List Fld)
  isSub : String → String → Bool
  find : List String → Obj → Option String

/-- `PolyModelType.is_allowed_model` (`types/compound.py:373-380`) for an instance of the class `k`. -/
def Env.allowed (env : Env) (cs : List String) (sub : Bool) (k : String) : Bool := if sub then cs.any (env.isSub k) else cs.contains k

/-- The import options that matter here (`transforms.py:70-86`). -/
structure Ctx where
  defaults : Bool
  initValues : Bool
  partialOk : Bool
  validate : Bool
  oo : Bool

/-- `BaseType.validate` (`types/base.py:281-310`) after the conversion: the validators look at the converted value.  They are not run when only converting. -/
def checked (valid : Heap → Nat → Bool) : Heap × Res → Heap × Res
  | (h, .ok b) => (h, if valid h b then .ok b else .err)
  | p => p

/-- `import_converter`/`validation_converter` (`transforms.py:369-383`): the check for required values, `None` is passed through. -/
def guard (c : Ctx) (required : Bool) (valid : Heap → Nat → Bool) (f : Heap → Nat → Heap × Res) (h : Heap) (a : Nat) : Heap × Res :=
  if (h.obj a).isNone then (h, if required then .err else .ok a)
  else if c.validate then checked valid (f h a) else f h a

/-- The loop of `ListType._convert` (`types/compound.py:225-229`); `none`: some item failed. -/
def convItems (f : Heap → Nat → Heap × Res) : Heap → List Nat → Heap × Option (List Nat)
  | h, [] => (h, some [])
  | h, a :: as =>
    match f h a with
    | (h1, .ok b) =>
      match convItems f h1 as with
      | (h2, some bs) => (h2, some (b :: bs))
      | (h2, none) => (h2, none)
    | (h1, _) => ((convItems f h1 as).1, none)

/-- The loop of `DictType._convert` (`types/compound.py:306-310`), the dict built so far given. -/
def convEntries (f : Heap → Nat → Heap × Res) (coerce : Key → Option Key) :
    Heap → List (Key × Nat) → List (Key × Nat) → Bool → Heap × Option (List (Key × Nat))
  | h, [], d, good => (h, if good then some d else none)
  | h, (k, a) :: es, d, good =>
    match f h a with
    | (h1, .ok b) =>
      match coerce k with
      | some k' => convEntries f coerce h1 es (Dict.set d k' b) good
      | none => convEntries f coerce h1 es d false
    | (h1, _) => convEntries f coerce h1 es d false

/-- The value of a field in the input (`iteration.py:60-75`, `transforms.py:121-125`): the entry of the first of its input keys. -/
def pick (raw : List (Key × Nat)) : List Key → Option Nat
  | [] => none
  | k :: ks => match Dict.get? raw k with | some a => some a | none => pick raw ks

/-- `field.default` (`types/base.py:255-260`). -/
def Dflt.get (d : Dflt) (h : Heap) : Heap × Option Nat :=
  match d with
  | .none => (h, Option.none)
  | .obj a => (h, some a)
  | .call o => (h ++ [o], some h.length)

/-- The value that is converted (`transforms.py:121-133`): from the input, else the default, else `None`, else nothing. -/
def source (c : Ctx) (fd : Fld) (raw : List (Key × Nat)) (h : Heap) : Heap × Option Nat :=
  match pick raw fd.keys with
  | some a => (h, some a)
  | none =>
    match (if c.defaults then fd.dflt.get h else (h, none)) with
    | (h1, some a) => (h1, some a)
    | (h1, none) => if c.initValues then (h1 ++ [.atom .none], some h1.length) else (h1, none)

/-- One round of `import_loop` (`transforms.py:118-165`): the heap, the data so far, and whether all went well so far.  After a failure the data gets the default
*as it is*, or the partial data of the failed field. -/
def convField (f : Ty → Heap → Nat → Heap × Res) (c : Ctx) (fd : Fld) (raw : List (Key × Nat)) (h : Heap)
    (d : List (Key × Nat)) : Heap × List (Key × Nat) × Bool :=
  match source c fd raw h with
  | (h1, none) => (h1, d, !(fd.required && !c.partialOk))
  | (h1, some a) =>
    match guard c (fd.required && !c.partialOk) fd.valid (f fd.ty) h1 a with
    | (h2, .ok b) => (h2, Dict.set d (.str fd.name) b, true)
    | (h2, .data p) => ((failed h2 d).1, Dict.set (failed h2 d).2.1 (.str fd.name) p, false)
    | (h2, .err) => failed h2 d
where
  /-- `transforms.py:158-162`. -/
  failed (h : Heap) (d : List (Key × Nat)) : Heap × List (Key × Nat) × Bool :=
    match (if c.defaults then fd.dflt.get h else (h, none)) with
    | (h1, some a) => (h1, Dict.set d (.str fd.name) a, false)
    | (h1, none) => (h1, d, false)

/-- The loop of `import_loop` over the fields (`transforms.py:118-165`). -/
def convFields (f : Ty → Heap → Nat → Heap × Res) (c : Ctx) (raw : List (Key × Nat)) :
    List Fld → Heap → List (Key × Nat) → Bool → Heap × List (Key × Nat) × Bool
  | [], h, d, good => (h, d, good)
  | fd :: fds, h, d, good =>
    match convField f c fd raw h d with
    | (h1, d1, g) => convFields f c raw fds h1 d1 (good && g)

/-- `model_class(value, context=context)` or `model_class.convert(value, context=context)` (`types/compound.py:159-162`): a new instance, or a new dict. -/
def convModel (f : Ty → Heap → Nat → Heap × Res) (env : Env) (c : Ctx) (oo : Bool) (cls : String) (h : Heap) (raw : List (Key × Nat)) : Heap × Res :=
  match env.fields cls with
  | none => (h, .err)
  | some fds =>
    match convFields f c raw fds h [] true with
    | (h1, d, true) => h1.new (if oo then .inst cls d else .dict d)
    | (h1, d, false) => (h1 ++ [.dict d], .data h1.length)

/-- `convert` of the types: `to_native` of a leaf, `ListType._convert`, `DictType._convert`, `ModelType._convert` and `PolyModelType._convert`
(`types/compound.py:150-162`, `221-232`, `300-313`, `382-400`).  The first argument bounds the depth of the recursion. -/
def conv (env : Env) (c : Ctx) : Nat → Ty → Heap → Nat → Heap × Res
  | 0, _, h, _ => (h, .err)
  | _ + 1, .leaf cv _, h, a =>
    match cv (h.obj a) with
    | .fail => (h, .err)
    | .keep => (h, .ok a)
    | .make v => h.new (.atom v)
  | n + 1, .list t req val, h, a =>
    match h.obj a with
    | .list xs =>
      match convItems (guard c req val (conv env c n t)) h xs with
      | (h1, some ys) => h1.new (.list ys)
      | (h1, none) => (h1, .err)
    | _ => (h, .err)
  | n + 1, .dict t req val ck, h, a =>
    match h.obj a with
    | .dict es =>
      match convEntries (guard c req val (conv env c n t)) ck h es [] true with
      | (h1, some d) => h1.new (.dict d)
      | (h1, none) => (h1, .err)
    | _ => (h, .err)
  | n + 1, .model cls, h, a =>
    match h.obj a with
    | .inst k es => if env.isSub k cls then convModel (conv env c n) env c c.oo k h es else (h, .err)
    | .dict es => convModel (conv env c n) env c c.oo cls h es
    | _ => (h, .err)
  | n + 1, .poly cs sub, h, a =>
    match h.obj a with
    | .inst k es =>
      if env.allowed cs sub k && !c.validate then (h, .ok a)
      else if !c.validate then (h, .err)
      else match env.find cs (h.obj a) with
        | some m => convModel (conv env c n) env c true m h es
        | none => (h, .err)
    | .dict es =>
      match env.find cs (h.obj a) with
      | some m => convModel (conv env c n) env c true m h es
      | none => (h, .err)
    | _ => (h, .err)

/-! ## Export -/

/-- `shaped` is left out of an exported list or dict (`types/compound.py:269-275`); `lvl` is the export level. -/
def leftOut (lvl : Nat) (compound : Bool) (h : Heap) (a : Nat) : Bool :=
  if (h.obj a).isNone then lvl ≤ 2 else compound && (h.obj a).kids.isEmpty && decide (lvl ≤ 1)

/-- `is_compound` (`types/base.py:206`, `types/compound.py:37`). -/
def Ty.compound : Ty → Bool
  | .leaf .. => false
  | _ => true

/-- `None` is passed through. -/
def passNone (f : Heap → Nat → Heap × Res) (h : Heap) (a : Nat) : Heap × Res := if (h.obj a).isNone then (h, .ok a) else f h a

/-- The loop of `ListType._export` (`types/compound.py:267-276`). -/
def expItems (f : Heap → Nat → Heap × Res) (out : Heap → Nat → Bool) : Heap → List Nat → Heap × Option (List Nat)
  | h, [] => (h, some [])
  | h, a :: as =>
    match f h a with
    | (h1, .ok b) =>
      match expItems f out h1 as with
      | (h2, some bs) => (h2, some (if out h1 b then bs else b :: bs))
      | (h2, none) => (h2, none)
    | (h1, _) => (h1, none)

/-- The loop of `DictType._export` (`types/compound.py:324-333`): the keys are those of the dict, so distinct. -/
def expEntries (f : Heap → Nat → Heap × Res) (out : Heap → Nat → Bool) : Heap → List (Key × Nat) → Heap × Option (List (Key × Nat))
  | h, [] => (h, some [])
  | h, (k, a) :: as =>
    match f h a with
    | (h1, .ok b) =>
      match expEntries f out h1 as with
      | (h2, some bs) => (h2, some (if out h1 b then bs else (k, b) :: bs))
      | (h2, none) => (h2, none)
    | (h1, _) => (h1, none)

/-- The loop of `export_loop` (`transforms.py:256-285`).  `fd.drop`: the role or the export level leaves the field out; `fd.keys` ends with the external name (the
name itself without `serialized_name`). -/
def expFields (f : Ty → Heap → Nat → Heap × Res) (lvl : Nat) (es : List (Key × Nat)) :
    List Fld → Heap → List (Key × Nat) → Heap × Option (List (Key × Nat))
  | [], h, d => (h, some d)
  | fd :: fds, h, d =>
    if fd.drop then expFields f lvl es fds h d else
    match Dict.get? es (.str fd.name) with
    | none => if lvl ≤ 10 then expFields f lvl es fds h d else expFields f lvl es fds (h ++ [.atom .none]) (Dict.set d (fd.keys.getLast?.getD (.str fd.name)) h.length)
    | some a =>
      match passNone (f fd.ty) h a with
      | (h1, .ok b) =>
        if leftOut lvl fd.ty.compound h1 b then expFields f lvl es fds h1 d
        else expFields f lvl es fds h1 (Dict.set d (fd.keys.getLast?.getD (.str fd.name)) b)
      | (h1, _) => (h1, none)

/-- `export_loop` on a model (`transforms.py:203-289`): a new dict. -/
def expModel (f : Ty → Heap → Nat → Heap × Res) (env : Env) (lvl : Nat) (cls : String) (h : Heap) (es : List (Key × Nat)) : Heap × Res :=
  match env.fields cls with
  | none => (h, .err)
  | some fds =>
    match expFields f lvl es fds h [] with
    | (h1, some d) => h1.new (.dict d)
    | (h1, none) => (h1, .err)

/-- `export` of the types (`types/base.py:268-269`, `types/compound.py:164-169`, `258-276`, `315-333`, `453-464`).  Simplification: an exported `None` item of a list
or dict is passed through (some leaf types fail on it). -/
def expo (env : Env) (lvl : Nat) : Nat → Ty → Heap → Nat → Heap × Res
  | 0, _, h, _ => (h, .err)
  | _ + 1, .leaf _ ex, h, a =>
    match ex (h.obj a) with
    | .fail => (h, .err)
    | .keep => (h, .ok a)
    | .make v => h.new (.atom v)
  | n + 1, .list t _ _, h, a =>
    match h.obj a with
    | .list xs =>
      match (if lvl = 0 then (h, some []) else expItems (passNone (expo env lvl n t)) (leftOut lvl t.compound) h xs) with
      | (h1, some ys) => h1.new (.list ys)
      | (h1, none) => (h1, .err)
    | _ => (h, .err)
  | n + 1, .dict t _ _ _, h, a =>
    match h.obj a with
    | .dict es =>
      match (if lvl = 0 then (h, some []) else expEntries (passNone (expo env lvl n t)) (leftOut lvl t.compound) h es) with
      | (h1, some ys) => h1.new (.dict ys)
      | (h1, none) => (h1, .err)
    | _ => (h, .err)
  | n + 1, .model cls, h, a =>
    match h.obj a with
    | .inst k es => expModel (expo env lvl n) env lvl k h es
    | .dict es => expModel (expo env lvl n) env lvl cls h es
    | _ => (h, .err)
  | n + 1, .poly cs sub, h, a =>
    match h.obj a with
    | .inst k es =>
      if env.allowed cs sub k then expModel (expo env lvl n) env lvl k h es else (h, .err)
    | _ => (h, .err)

end Verif.Fresh
