import Verif.Core.Alias

/-!
# Methods of instances as sequences of steps, which may be interrupted

A `KeyboardInterrupt` (or an exception raised by a signal handler, `asyncio` timeouts by signals and so on) may come between any two instructions.  Here the methods of
`Model` are programs over the *cells* of an instance: the dict objects, the attributes of its `ModelDict` which refer to them, and the list `maps` of the `ChainMap`, which
refers to them a second time.  Every store into a cell is a step of its own; before every step, in exception handlers and `finally` blocks too, an interrupt may come.  When
interrupts come is given by a schedule.

Simplification: the interrupts come while values are converted or exported, too, but the values of the fields are trees (as in `Core/Alias`), so nothing is seen of that; a nested
model instance that is assigned to a field by the program itself is not affected.

Simplification: an interrupt is not swallowed.  The code has three bare `except:` clauses, not in the methods modelled here but in what they call: around the test whether a context is filled in
(`transforms.py:68-70` and `233-235`) and around the call of an external date parser (`types/base.py:856-859`); an interrupt that comes just there is taken for what the clause expects: a context to be filled
in, whose options are then set again as they are, or an unreadable date.
-/
namespace Verif

/-- The cells of an instance. -/
structure Cells where
  /-- The dict objects. -/
  heap : DictHeap
  /-- The attributes `_unsafe`, `_converted`, `_valid`, `__valid` of the `ModelDict` (`models.py:148-157`). -/
  attrs : HInst
  /-- `maps[0]`, `maps[1]`, `maps[2]` of the `ChainMap` (`models.py:157`). -/
  map0 : Nat
  map1 : Nat
  map2 : Nat

/-- An instance as it is when no call is under way and none was interrupted. -/
def Cells.of (h : DictHeap) (I : HInst) : Cells := ⟨h, I, I.raw, I.converted, I.valid⟩

/-- All entries of the chain map. -/
def Cells.content (s : Cells) : Data := ((s.heap.rd s.map2).update (s.heap.rd s.map1)).update (s.heap.rd s.map0)

/-- `instance._data[key]`: `ChainMap.__getitem__` looks into `maps`. -/
def Cells.lookup (s : Cells) (k : Key) : Option Val :=
  match Dict.get? (s.heap.rd s.map0) k with
  | some v => some v
  | none =>
    match Dict.get? (s.heap.rd s.map1) k with
    | some v => some v
    | none => Dict.get? (s.heap.rd s.map2) k

/-- How a program ends if it does not return. -/
inductive Fault
  | exc (e : Exc)
  | interrupt

/-- Who watches a program: at every step it sees the cells, and says whether an interrupt comes. -/
class Watcher (σ : Type) where
  ask : Cells → σ → Bool × σ

/-- A schedule of interrupts: `true` for an interrupt at the step. -/
instance : Watcher (List Bool) where
  ask _ o :=
    match o with
    | b :: o => (b, o)
    | [] => (false, [])

/-- A program: from the cells and the watcher (the schedule of interrupts) to its outcome, the cells afterwards and the watcher afterwards (the rest of the schedule). -/
abbrev Steps (σ α : Type) := Cells → σ → Except Fault α × Cells × σ

namespace Steps

variable {σ : Type}

/-- Return. -/
def pure (a : α) : Steps σ α := fun s o => (.ok a, s, o)

/-- Raise. -/
def throw (f : Fault) : Steps σ α := fun s o => (.error f, s, o)

/-- One after the other. -/
def bind (m : Steps σ α) (k : α → Steps σ β) : Steps σ β := fun s o =>
  match m s o with
  | (.ok a, s1, o1) => k a s1 o1
  | (.error f, s1, o1) => (.error f, s1, o1)

instance : Monad (Steps σ) where
  pure := Steps.pure
  bind := Steps.bind

variable [Watcher σ]

/-- A point at which an interrupt may come: it does if the schedule says so. -/
def tick : Steps σ Unit := fun s o =>
  match Watcher.ask s o with
  | (true, o) => (.error .interrupt, s, o)
  | (false, o) => (.ok (), s, o)

/-- Look at the cells. -/
def get (f : Cells → α) : Steps σ α := fun s o => (.ok (f s), s, o)

/-- One store. -/
def store (f : Cells → Cells) : Steps σ Unit := fun s o =>
  match tick s o with
  | (.ok _, s1, o1) => (.ok (), f s1, o1)
  | (.error e, s1, o1) => (.error e, s1, o1)

/-- A new dict object. -/
def alloc (d : Data) : Steps σ Nat := fun s o =>
  match tick s o with
  | (.ok _, s1, o1) => (.ok (s1.heap.new d).2, { s1 with heap := (s1.heap.new d).1 }, o1)
  | (.error e, s1, o1) => (.error e, s1, o1)

/-- The outcome of a computation on values. -/
def ofR : R α → Steps σ α
  | .ok a => do tick; pure a
  | .error e => do tick; throw (.exc e)

/-- `try: … except DataError as e: …`. -/
def tryData (m : Steps σ α) (handler : Errs → Data → Steps σ α) : Steps σ α := fun s o =>
  match m s o with
  | (.error (.exc (.data es p)), s1, o1) => handler es p s1 o1
  | x => x

/-- `try: … finally: …`. -/
def tryFinally (m : Steps σ α) (last : Steps σ Unit) : Steps σ α := fun s o =>
  match m s o with
  | (r, s1, o1) =>
    match last s1 o1 with
    | (.ok _, s2, o2) => (r, s2, o2)
    | (.error f, s2, o2) => (.error f, s2, o2)

/-- Entries stored one by one into a dict object (`dict.update`, or the assignments of a setter). -/
def writeAt (a : Nat) : List (Key × Val) → Steps σ Unit
  | [] => pure ()
  | kv :: l => do
    store fun s => { s with heap := s.heap.wr a ((s.heap.rd a).set kv.1 kv.2) }
    writeAt a l

/-- The setter of `unsafe` (`models.py:163-166`): two stores. -/
def putUnsafe (a : Nat) : Steps σ Unit := do
  store fun s => { s with attrs := { s.attrs with raw := a } }
  store fun s => { s with map0 := s.attrs.raw }

/-- The setter of `converted` (`models.py:172-175`): two stores. -/
def putConverted (a : Nat) : Steps σ Unit := do
  store fun s => { s with attrs := { s.attrs with converted := a } }
  store fun s => { s with map1 := s.attrs.converted }

/-- The setter of `valid` (`models.py:181-184`): two stores. -/
def putValid (a : Nat) : Steps σ Unit := do
  store fun s => { s with attrs := { s.attrs with valid := a } }
  store fun s => { s with map2 := s.attrs.valid }

/-- `instance.name = v` (`models.py:55-61`, `types/serializable.py:90-94`). -/
def setAttr (env : Env) (n : Nat) (c : ClassDef) (name : String) (v : Val) : Steps σ Unit :=
  match c.field? name with
  | none => throw (.exc (.other "AttributeError"))
  | some fd =>
    match fd.fget with
    | some _ =>
      match fd.fset with
      | none => throw (.exc (.other "AttributeError"))
      | some f => do
        let w ← ofR (preSet env n fd.field v)
        let asg ← ofR (f w)
        let a ← get (·.attrs.converted)
        writeAt a asg
    | none => do
      let w ← ofR (preSet env n fd.field v)
      let a ← get (·.attrs.converted)
      writeAt a [(.str name, w)]

/-- `del data[key]`, `KeyError` swallowed (`models.py:189-193`): was it there? -/
def delIn (k : Key) (a : Nat) : Steps σ Bool := do
  let there ← get fun s => (s.heap.rd a).has k
  if there then do
    store fun s => { s with heap := s.heap.wr a ((s.heap.rd a).erase k) }
    pure true
  else pure false

/-- `ModelDict.__delitem__` (`models.py:186-195`). -/
def delete (k : Key) : Steps σ Unit := do
  let a ← get (·.attrs.stale)
  let b1 ← delIn k a
  let a ← get (·.attrs.converted)
  let b2 ← delIn k a
  let a ← get (·.attrs.raw)
  let b3 ← delIn k a
  if b1 || b2 || b3 then pure () else throw (.exc (.other "KeyError"))

/-- `del instance.name` (`models.py:63-67`). -/
def delAttr (c : ClassDef) (name : String) : Steps σ Unit :=
  match c.field? name with
  | none => throw (.exc (.other "AttributeError"))
  | some fd => if fd.fget.isSome then throw (.exc (.other "AttributeError")) else delete (.str name)

/-- `raw_data = _dict(raw_data) if raw_data else self._data.converted` (`models.py:289`). -/
def given (raw : Data) : Steps σ Nat := if raw.isEmpty then get (·.attrs.converted) else alloc raw

/-- Pending raw data (`models.py:292-296`). -/
def takePending (r : Nat) : Steps σ Nat := do
  let pending ← get fun s => s.heap.rd s.attrs.raw
  if pending.isEmpty then pure r
  else do
    let u ← get (·.attrs.raw)
    let d ← get fun s => s.heap.rd r
    writeAt u d
    let e ← alloc []
    putUnsafe e
    pure u

/-- `_mutate` on the instance (`transforms.py:181-200`): the setters, then `raw_data.update`. -/
def mutate (env : Env) (n : Nat) (ctx : Ctx) (c : ClassDef) (r : Nat) : Steps σ Unit := do
  let src ← get fun s => s.heap.rd r
  let a ← get (·.attrs.converted)
  writeAt a (setterSteps (fieldConv env n) ctx src c.settable)
  let l ← get fun s => copied env n ctx c src s.content
  writeAt r l

/-- `Model._convert` (`models.py:281-299`). -/
def convert (env : Env) (n : Nat) (c : ClassDef) (raw : Data) (ctx : Ctx) : Steps σ Data := do
  let more ← get fun s => !(s.heap.rd s.attrs.raw).isEmpty
  let ctx' : Ctx := { ctx with oo := true, convert := ctx.convert || more, conv := if ctx.validate then .val else .imp }
  let r ← given raw
  let r ← takePending r
  let content ← get (·.content)
  let src ← get fun s => s.heap.rd r
  if ctx.validate then do
    mutate env n ctx' c r
    ofR (runValidate env n ctx' c (.inst content) src)
  else ofR (runImport env n ctx' c (.inst content) src)

/-- The body of `validate` (`models.py:255-266`). -/
def validateBody (env : Env) (n : Nat) (c : ClassDef) (ctx : Ctx) : Steps σ Unit :=
  tryFinally
    (tryData
      (do
        let d ← convert env n c [] { ctx with validate := true, trusted := [] }
        let a ← alloc d
        putValid a)
      (fun es p => do
        let v ← get fun s => s.heap.rd s.attrs.valid
        let a ← alloc (v.update p)
        putValid a
        throw (.exc (.data es p))))
    (do
      let a ← alloc []
      putConverted a)

/-- `Model.validate` (`models.py:240-266`). -/
def validate (env : Env) (n : Nat) (c : ClassDef) (ctx : Ctx) : Steps σ Unit := do
  let skip ← get fun s => (s.heap.rd s.attrs.converted).isEmpty && ctx.partial_
  if skip then pure () else validateBody env n c ctx

/-- `Model.import_data` (`models.py:268-279`). -/
def importData (env : Env) (n : Nat) (c : ClassDef) (raw : Data) (ctx : Ctx) : Steps σ Unit := do
  let t ← get fun s => c.view s.content
  let d ← convert env n c raw { ctx with trusted := t }
  let a ← get (·.attrs.converted)
  writeAt a d
  if ctx.validate then validate env n c { convert := false } else pure ()

/-- `Model.serialize` (`models.py:311-319`). -/
def serialize (env : Env) (n : Nat) (c : ClassDef) (ectx : ECtx) : Steps σ Data := do
  let saved ← get (·.attrs.converted)
  tryData (validate env n c { defaults := true, validate := true }) fun _ _ => pure ()
  let content ← get (·.content)
  let d ← ofR (runExport env n ectx c (.inst content))
  putConverted saved
  pure d

/-- A call of a public method; the point between its last step and the caller is one more point at which an interrupt may come. -/
def op (env : Env) (n : Nat) (c : ClassDef) (x : Op) : Steps σ Unit := do
  (match x with
    | .set name v => setAttr env n c name v
    | .del name => delAttr c name
    | .validate ctx => validate env n c ctx
    | .importData raw ctx => importData env n c raw ctx
    | .serialize ectx => do let _ ← serialize env n c ectx; pure () : Steps σ Unit)
  tick

end Steps

/-- The cells after a call, whether it returned, raised or was interrupted. -/
def Cells.after (env : Env) (n : Nat) (c : ClassDef) (s : Cells) (x : Op) (schedule : List Bool) : Cells := (Steps.op env n c x s schedule).2.1

/-- The cells after a history of calls, each with the schedule of its interrupts. -/
def Cells.history (env : Env) (n : Nat) (c : ClassDef) : Cells → List (Op × List Bool) → Cells
  | s, [] => s
  | s, (x, o) :: l => Cells.history env n c (s.after env n c x o) l

end Verif
