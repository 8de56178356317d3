import Verif.Py.Val

/-!
# Context objects: `datastructures.py:101-152` and their use in `transforms.py`

A context is an object with attributes (the options).  Objects live in a heap, so that sharing is visible.
-/
namespace Verif.Lib

/-- The attributes of a context (`__dict__`). -/
abbrev Opts := Dict String Val

/-- The context objects that exist; an object is identified by its position. -/
abbrev Heap := List Opts

/-- Python's `v is not None`. -/
def notNone : Val → Bool
  | .none => false
  | _ => true

/-- `ctx.name = v` (`Context.__setattr__`, `datastructures.py:127-130`); `none` is `TypeError`. -/
def setAttr (h : Heap) (i : Nat) (name : String) (v : Val) : Option Heap :=
  match h[i]? with
  | none => none
  | some c => if c.has name then none else some (h.set i (c.set name v))

/-- `ctx._setdefaults(source)` (`datastructures.py:141-147`): `source.copy()`, updated with the present attributes, is written back. -/
def setDefaults (h : Heap) (i : Nat) (source : Opts) : Heap :=
  match h[i]? with
  | none => h
  | some c => h.set i (Dict.update c (Dict.update source c))

/-- The options of `_branch` that make a difference (`datastructures.py:135`); `neq` is `!=`; `none` is `KeyError` for an option the
context does not have. -/
def branchItems (neq : Val → Val → Bool) (c : Opts) : List (String × Val) → Option (List (String × Val))
  | [] => some []
  | (k, v) :: r =>
    if notNone v then
      match c.get? k, branchItems neq c r with
      | some w, some r => some (if neq v w then (k, v) :: r else r)
      | _, _ => none
    else branchItems neq c r

/-- `ctx._branch(**kwargs)` (`datastructures.py:132-139`): the same object if nothing changes, else a new one. -/
def branch (neq : Val → Val → Bool) (h : Heap) (i : Nat) (kwargs : List (String × Val)) : Option (Heap × Nat) :=
  match h[i]? with
  | none => none
  | some c =>
    match branchItems neq c kwargs with
    | none => none
    | some [] => some (h, i)
    | some items => some (h ++ [c.update items], h.length)

/-- What the caller passes as `context`. -/
inductive CtxArg
  | absent
  | object (i : Nat)
  | mapping (d : Opts)

/-- `Context._make(context)` (`datastructures.py:118-125`); without `_fields` any attribute is allowed. -/
def make (h : Heap) : CtxArg → Heap × Nat
  | .absent => (h ++ [[]], h.length)
  | .object i => (h, i)
  | .mapping d => (h ++ [d], h.length)

/-- The start of `import_loop` and `export_loop` (`transforms.py:67-88`, `232-246`): a context that is not `initialized` gets the call's
arguments as defaults; an initialized one is used as it is.  `args` contains `initialized`. -/
def enter (h : Heap) (ctx : CtxArg) (args : Opts) : Heap × Nat :=
  let (h, i) := make h ctx
  match h[i]? with
  | some c => if c.has "initialized" then (h, i) else (setDefaults h i args, i)
  | none => (h, i)

/-- `ctx.name` -/
def option (h : Heap) (i : Nat) (name : String) : Option Val :=
  match h[i]? with
  | some c => c.get? name
  | none => none

end Verif.Lib
