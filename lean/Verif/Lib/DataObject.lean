import Verif.Py.Val

/-!
# `DataObject` (`datastructures.py:12-97`)

Objects live in a heap; an attribute is a `DataObject` or something else.
-/
namespace Verif.Lib.DataObject

/-- The value of an attribute. -/
inductive DVal
  | plain (v : Val)
  | object (a : Nat)

/-- `__dict__`. -/
abbrev Attrs := Dict String DVal

/-- The `DataObject`s that exist; an object is identified by its position. -/
abbrev Objs := List Attrs

/-- The attributes of an object. -/
def rd (h : Objs) (a : Nat) : Attrs := (h[a]?).getD []

/-- What is given as `source`. -/
inductive Source
  /-- `None` -/
  | none
  /-- a dict -/
  | dict (d : List (String × DVal))
  /-- another object -/
  | object (a : Nat)

/-- The entries of a source that is not `None`: `source.__dict__` of an object (`datastructures.py:68-69`), whose iteration yields the same pairs (`64-65`, `73-75`). -/
def entries (h : Objs) : Source → List (String × DVal)
  | .none => []
  | .dict d => d
  | .object a => rd h a

/-- Entries put in if there is none of the name (`datastructures.py:73-77`). -/
def addMissing (d : Attrs) : List (String × DVal) → Attrs
  | [] => d
  | (k, v) :: l => addMissing (if d.has k then d else d.set k v) l

/-- An operation with its target. -/
inductive DOp
  /-- `DataObject(source, **kwargs)` (`datastructures.py:49-51`); `absent` is `DataObject(**kwargs)` -/
  | new (source : Source) (absent : Bool) (kwargs : List (String × DVal))
  /-- `d._copy()`, `copy.copy(d)` (`datastructures.py:56-59`) -/
  | copy (a : Nat)
  /-- `d._update(source, **kwargs)` (`datastructures.py:67-70`) -/
  | update (a : Nat) (source : Source) (kwargs : List (String × DVal))
  /-- `d._setdefaults(source)` (`datastructures.py:72-77`) -/
  | setdefaults (a : Nat) (source : Source)
  /-- `d._setdefault(key, v)` (`datastructures.py:97`) -/
  | setdefault (a : Nat) (k : String) (v : DVal)
  /-- `d[key] = v`, `d.key = v` (`datastructures.py:86`) -/
  | set (a : Nat) (k : String) (v : DVal)
  /-- `del d[key]` (`datastructures.py:88`) -/
  | del (a : Nat) (k : String)
  /-- `d._pop(key)` and `d._pop(key, default)` (`datastructures.py:96`) -/
  | pop (a : Nat) (k : String) (default : Option DVal)
  /-- `d._clear()` (`datastructures.py:92`) -/
  | clear (a : Nat)

/-- What an operation returns. -/
inductive Ret
  | nothing
  | value (v : DVal)
  | raised (e : String)

/-- An operation (`datastructures.py:49-97`): what it returns and the objects afterwards.  `dict.update(None)` raises a `TypeError`, and so does `_setdefaults(None)`. -/
def DOp.run (h : Objs) : DOp → Ret × Objs
  | .new .none false _ => (.raised "TypeError", h)
  | .new s _ kw => (.value (.object h.length), h ++ [Dict.update (Dict.update [] (entries h s)) kw])
  | .copy a => (.value (.object h.length), h ++ [Dict.update [] (rd h a)])
  | .update _ .none _ => (.raised "TypeError", h)
  | .update a s kw => (.nothing, h.set a (Dict.update (Dict.update (rd h a) (entries h s)) kw))
  | .setdefaults _ .none => (.raised "TypeError", h)
  | .setdefaults a s => (.value (.object a), h.set a (addMissing (rd h a) (entries h s)))
  | .setdefault a k v =>
    match (rd h a).get? k with
    | some w => (.value w, h)
    | none => (.value v, h.set a ((rd h a).set k v))
  | .set a k v => (.nothing, h.set a ((rd h a).set k v))
  | .del a k => if (rd h a).has k then (.nothing, h.set a ((rd h a).erase k)) else (.raised "KeyError", h)
  | .pop a k default =>
    match (rd h a).get? k with
    | some w => (.value w, h.set a ((rd h a).erase k))
    | none =>
      match default with
      | some w => (.value w, h)
      | none => (.raised "KeyError", h)
  | .clear a => (.nothing, h.set a [])

/-- A history of operations. -/
def runAll (h : Objs) (ops : List DOp) : Objs := ops.foldl (fun h o => (o.run h).2) h

/-- The result of `_to_dict`. -/
inductive Tree
  | leaf (v : Val)
  | node (l : List (String × Tree))

/-- The loop over the attributes (`datastructures.py:81-83`). -/
def eachTree (f : DVal → Option Tree) : List (String × DVal) → Option (List (String × Tree))
  | [] => some []
  | (k, v) :: l =>
    match f v, eachTree f l with
    | some t, some r => some ((k, t) :: r)
    | _, _ => none

/-- `_to_dict` (`datastructures.py:79-84`), of one value; the number is the depth to which the interpreter recurses, `none` is a `RecursionError`. -/
def toTree (h : Objs) : Nat → DVal → Option Tree
  | _, .plain v => some (.leaf v)
  | 0, .object _ => none
  | n + 1, .object a => (eachTree (toTree h n) (rd h a)).map .node

/-- Two values of attributes (`datastructures.py:62`, comparing dicts): an object is equal to itself (CPython compares values of dicts for identity first), and a value that is no `DataObject` to no `DataObject` (`isinstance(other, DataObject)`); `f` compares objects. -/
def cmp (f : Nat → Nat → Option Bool) : DVal → DVal → Option Bool
  | .plain v, .plain w => some (v.pyEq w)
  | .object a, .object b => if a = b then some true else f a b
  | _, _ => some false

/-- The entries of the first dict are looked up in the second, up to the first difference. -/
def eachEq (f : DVal → DVal → Option Bool) : List (String × DVal) → Attrs → Option Bool
  | [], _ => some true
  | (k, v) :: l, d =>
    match d.get? k with
    | none => some false
    | some w =>
      match f v w with
      | some true => eachEq f l d
      | r => r

/-- `a == b` (`datastructures.py:61-62`) for two `DataObject`s; the number is the depth to which the interpreter recurses, `none` is a `RecursionError`. -/
def eqObj (h : Objs) : Nat → Nat → Nat → Option Bool
  | 0, _, _ => none
  | n + 1, a, b => if (rd h a).length = (rd h b).length then eachEq (cmp (eqObj h n)) (rd h a) (rd h b) else some false

end Verif.Lib.DataObject
