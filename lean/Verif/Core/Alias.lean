import Verif.Core.Instance

/-!
# Instances whose layers are dict *objects*

`Core/Instance` treats the layers of a `ModelDict` as values.  Here they are references into a heap of dict objects, which the program that uses the
instances shares: the dicts it passes as `raw_data` and `trusted_data` are objects it can go on using.  Every assignment of a new dict, every in-place change and every
copy of the code is written as such.

Simplification: the values of the fields are still immutable trees; only the dicts at the top of the layers are objects.
-/
namespace Verif

/-- The dict objects that exist; an address is a position. -/
abbrev DictHeap := List Data

/-- The content of a dict object. -/
def DictHeap.rd (h : DictHeap) (a : Nat) : Data := (h[a]?).getD []

/-- The dict object gets a new content. -/
def DictHeap.wr (h : DictHeap) (a : Nat) (d : Data) : DictHeap := h.set a d

/-- A new dict object. -/
def DictHeap.new (h : DictHeap) (d : Data) : DictHeap × Nat := (h ++ [d], h.length)

/-- `ModelDict` (`models.py:148-157`): the attributes `_unsafe`, `_converted`, `_valid` (through its read-only proxy) and `__valid`. -/
structure HInst where
  raw : Nat
  converted : Nat
  valid : Nat
  stale : Nat
  deriving DecidableEq

namespace HInst

/-- All entries of the chain map (`models.py:157`). -/
def content (I : HInst) (h : DictHeap) : Data := ((h.rd I.valid).update (h.rd I.converted)).update (h.rd I.raw)

/-- `instance.name = v` (`models.py:55-61`, `types/serializable.py:90-94`): the dict `_converted` is changed (`ChainMap.__setitem__` is not used:
`models.py:61` writes to `instance._data.converted`). -/
def setAttr (env : Env) (n : Nat) (c : ClassDef) (h : DictHeap) (I : HInst) (name : String) (v : Val) : R Unit × DictHeap :=
  match c.field? name with
  | none => (.error (.other "AttributeError"), h)
  | some fd =>
    match fd.fget with
    | some _ =>
      match fd.fset with
      | none => (.error (.other "AttributeError"), h)
      | some f =>
        match preSet env n fd.field v with
        | .error e => (.error e, h)
        | .ok w =>
          match f w with
          | .error e => (.error e, h)
          | .ok asg => (.ok (), h.wr I.converted ((h.rd I.converted).update asg))
    | none =>
      match preSet env n fd.field v with
      | .error e => (.error e, h)
      | .ok w => (.ok (), h.wr I.converted ((h.rd I.converted).set (.str name) w))

/-- `del data[key]` for one of the dicts, `KeyError` swallowed (`models.py:188-193`): was it there, and the heap afterwards. -/
def delIn (h : DictHeap) (k : Key) (a : Nat) : Bool × DictHeap :=
  if (h.rd a).has k then (true, h.wr a ((h.rd a).erase k)) else (false, h)

/-- `ModelDict.__delitem__` (`models.py:186-195`). -/
def delete (h : DictHeap) (I : HInst) (k : Key) : R Unit × DictHeap :=
  let p1 := delIn h k I.stale
  let p2 := delIn p1.2 k I.converted
  let p3 := delIn p2.2 k I.raw
  (if p1.1 || p2.1 || p3.1 then .ok () else .error (.other "KeyError"), p3.2)

/-- `del instance.name` (`models.py:63-67`). -/
def delAttr (c : ClassDef) (h : DictHeap) (I : HInst) (name : String) : R Unit × DictHeap :=
  match c.field? name with
  | none => (.error (.other "AttributeError"), h)
  | some fd => if fd.fget.isSome then (.error (.other "AttributeError"), h) else I.delete h (.str name)

/-- `raw_data` of `_convert` (`models.py:289`): `_dict(raw_data)` is a new dict; without input it is the dict `_converted` itself. -/
def given (h : DictHeap) (I : HInst) (raw : Data) : DictHeap × Nat :=
  if raw.isEmpty then (h, I.converted) else h.new raw

/-- Pending raw data (`models.py:292-296`): the dict `_unsafe` is updated in place, becomes the input, and is replaced by a new dict. -/
def takePending (h : DictHeap) (I : HInst) (r : Nat) : DictHeap × Nat × HInst :=
  if (h.rd I.raw).isEmpty then (h, r, I)
  else
    let p := (h.wr I.raw ((h.rd I.raw).update (h.rd r))).new []
    (p.1, I.raw, { I with raw := p.2 })

/-- `_mutate` (`transforms.py:181-200`) on the instance: the setters write to `_converted`, then `raw_data.update` changes the input dict in place. -/
def mutate (env : Env) (n : Nat) (ctx : Ctx) (c : ClassDef) (h : DictHeap) (I : HInst) (r : Nat) : DictHeap :=
  let h1 := h.wr I.converted (setterWrites env n ctx c (h.rd r) (h.rd I.converted))
  h1.wr r ((h1.rd r).update (copied env n ctx c (h.rd r) (I.content h1)))

/-- The context of `_convert` (`models.py:290-299`). -/
def convertCtx (h : DictHeap) (I : HInst) (ctx : Ctx) : Ctx :=
  { ctx with oo := true, convert := ctx.convert || !(h.rd I.raw).isEmpty, conv := if ctx.validate then .val else .imp }

/-- `Model._convert` (`models.py:281-299`).  The outcome of the loop is a function of the contents of the dicts (`Core/Import`). -/
def convert (env : Env) (n : Nat) (c : ClassDef) (h : DictHeap) (I : HInst) (raw : Data) (ctx : Ctx) : R Data × DictHeap × HInst :=
  let ctx' := I.convertCtx h ctx
  let p := I.given h raw
  let q := I.takePending p.1 p.2
  let J := q.2.2
  if ctx.validate then
    (runValidate env n ctx' c (.inst (J.content q.1)) (q.1.rd q.2.1), J.mutate env n ctx' c q.1 q.2.1, J)
  else
    (runImport env n ctx' c (.inst (J.content q.1)) (q.1.rd q.2.1), q.1, J)

/-- `self._data.valid = data` (`models.py:181-184`): `__valid` stays. -/
def setValid (h : DictHeap) (I : HInst) (d : Data) : DictHeap × HInst :=
  let p := h.new d
  (p.1, { I with valid := p.2 })

/-- `self._data.converted = {}` (`models.py:266`). -/
def clear (h : DictHeap) (I : HInst) : DictHeap × HInst :=
  let p := h.new []
  (p.1, { I with converted := p.2 })

/-- `Model.validate` (`models.py:240-266`). -/
def validate (env : Env) (n : Nat) (c : ClassDef) (h : DictHeap) (I : HInst) (ctx : Ctx) : R Unit × DictHeap × HInst :=
  if (h.rd I.converted).isEmpty && ctx.partial_ then (.ok (), h, I)
  else
    match I.convert env n c h [] { ctx with validate := true, trusted := [] } with
    | (.ok d, h1, J) => (.ok (), (J.setValid h1 d).2.clear (J.setValid h1 d).1)
    | (.error (.data es p), h1, J) =>
      (.error (.data es p), (J.setValid h1 ((h1.rd J.valid).update p)).2.clear (J.setValid h1 ((h1.rd J.valid).update p)).1)
    | (.error e, h1, J) => (.error e, J.clear h1)

/-- `Model.import_data` (`models.py:268-279`): `_dict(self)` is a copy; `converted.update(data)` is in place. -/
def importData (env : Env) (n : Nat) (c : ClassDef) (h : DictHeap) (I : HInst) (raw : Data) (ctx : Ctx) : R Unit × DictHeap × HInst :=
  match I.convert env n c h raw { ctx with trusted := c.view (I.content h) } with
  | (.error e, h1, J) => (.error e, h1, J)
  | (.ok d, h1, J) =>
    let h2 := h1.wr J.converted ((h1.rd J.converted).update d)
    if ctx.validate then J.validate env n c h2 { convert := false }
    else (.ok (), h2, J)

/-- `Model.serialize` (`models.py:311-319`): the dict object `_converted` is put back. -/
def serialize (env : Env) (n : Nat) (c : ClassDef) (h : DictHeap) (I : HInst) (ectx : ECtx) : R Data × DictHeap × HInst :=
  match I.validate env n c h { defaults := true, validate := true } with
  | (.error (.data _ _), h1, J) | (.ok (), h1, J) =>
    match runExport env n ectx c (.inst (J.content h1)) with
    | .error e => (.error e, h1, J)
    | .ok d => (.ok d, h1, { J with converted := I.converted })
  | (.error e, h1, J) => (.error e, h1, J)

/-- An argument `raw_data` or `trusted_data`: the dict object of the caller, or `none`; `ModelDict.__init__` (`models.py:152-157`) keeps the object itself. -/
def keep (h : DictHeap) : Option Nat → DictHeap × Nat
  | some a => (h, a)
  | none => h.new []

/-- `Model.__init__` (`models.py:221-238`). -/
def init (env : Env) (n : Nat) (c : ClassDef) (h : DictHeap) (raw trusted : Option Nat) (lazy_ : Bool) (ctx : Ctx) : R HInst × DictHeap :=
  if lazy_ then
    let p := keep h raw
    let q := p.1.new []
    let t := keep q.1 trusted
    (.ok ⟨p.2, q.2, t.2, t.2⟩, t.1)
  else
    let p := h.new []
    let q := p.1.new []
    let t := keep q.1 trusted
    let I : HInst := ⟨p.2, q.2, t.2, t.2⟩
    match I.convert env n c t.1 ((raw.map h.rd).getD []) { ctx with trusted := t.1.rd t.2 } with
    | (.error e, h1, _) => (.error e, h1)
    | (.ok d, h1, J) =>
      let k := h1.new d
      let K := { J with converted := k.2 }
      if ctx.validate then
        match K.validate env n c k.1 { partial_ := ctx.partial_, app := ctx.app, init := ctx.init, defaults := ctx.defaults } with
        | (.ok (), h2, L) => (.ok L, h2)
        | (.error e, h2, _) => (.error e, h2)
      else (.ok K, k.1)

/-- A call of a public method (`Core/Instance`): the new references and the heap afterwards. -/
def run (env : Env) (n : Nat) (c : ClassDef) (h : DictHeap) (I : HInst) : Op → DictHeap × HInst
  | .set name v => ((I.setAttr env n c h name v).2, I)
  | .del name => ((I.delAttr c h name).2, I)
  | .validate ctx => (I.validate env n c h ctx).2
  | .importData raw ctx => (I.importData env n c h raw ctx).2
  | .serialize ectx => (I.serialize env n c h ectx).2

end HInst

/-! ## A program with many instances and dicts -/

/-- The argument of a constructor or of `import_data`: nothing, one of the program's dicts, or a dict made for the call only. -/
inductive ArgSrc
  | none
  | mine (k : Nat)
  | literal (d : Data)

/-- A step of a program. -/
inductive AOp
  /-- it makes a dict of its own -/
  | mk (d : Data)
  /-- it changes its `k`-th dict -/
  | write (k : Nat) (d : Data)
  /-- it calls the constructor of a class -/
  | new (c : ClassDef) (raw trusted : ArgSrc) (lazy_ : Bool) (ctx : Ctx)
  /-- it calls a method of its `i`-th instance -/
  | call (i : Nat) (op : Op)
  /-- it calls `import_data` of its `i`-th instance with one of its own dicts -/
  | importMine (i : Nat) (k : Nat) (ctx : Ctx)

/-- The dict objects, which of them the program made itself, and its instances. -/
structure AWorld where
  heap : DictHeap := []
  mine : List Nat := []
  insts : List (ClassDef × HInst) := []

/-- The dict object of an argument. -/
def AWorld.arg (w : AWorld) : ArgSrc → DictHeap × Option Nat
  | .none => (w.heap, Option.none)
  | .mine k => (w.heap, w.mine[k]?)
  | .literal d => ((w.heap.new d).1, some (w.heap.new d).2)

/-- A call of a method of the `i`-th instance. -/
def AWorld.callInst (env : Env) (n : Nat) (w : AWorld) (i : Nat) (op : Op) : AWorld :=
  match w.insts[i]? with
  | some (c, I) =>
    let p := I.run env n c w.heap op
    { w with heap := p.1, insts := w.insts.set i (c, p.2) }
  | none => w

/-- One step. -/
def AWorld.step (env : Env) (n : Nat) (w : AWorld) : AOp → AWorld
  | .mk d => { w with heap := (w.heap.new d).1, mine := w.mine ++ [(w.heap.new d).2] }
  | .write k d =>
    match w.mine[k]? with
    | some a => { w with heap := w.heap.wr a d }
    | none => w
  | .new c raw trusted lazy_ ctx =>
    let r := w.arg raw
    let t := ({ w with heap := r.1 } : AWorld).arg trusted
    match HInst.init env n c t.1 r.2 t.2 lazy_ ctx with
    | (.ok I, h) => { w with heap := h, insts := w.insts ++ [(c, I)] }
    | (.error _, h) => { w with heap := h }
  | .call i op => w.callInst env n i op
  | .importMine i k ctx =>
    match w.mine[k]? with
    | some a => w.callInst env n i (.importData (w.heap.rd a) ctx)
    | none => w

/-- A program. -/
def AWorld.run (env : Env) (n : Nat) (w : AWorld) (ops : List AOp) : AWorld := ops.foldl (AWorld.step env n) w

end Verif
