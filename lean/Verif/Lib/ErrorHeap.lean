import Verif.Lib.Error

/-!
# Errors as objects: what of a raised error can still change

`Lib/Error.lean` treats errors as values.  Here they are the objects they are in Python: messages are mutable and may be shared by several
errors, error dicts are objects of the caller, reports and hashes are cached on the error, and texts may be translated on demand
(`exceptions.py`, `translator.py`, `FrozenDict` and `FrozenList` of `datastructures.py`).
-/
namespace Verif.Lib.ErrorHeap
open Verif Verif.Lib

/-- A text or a `LazyText` object (`translator.py:6-20`); `LazyText` objects compare by identity, so they carry one. -/
inductive Txt
  | plain (s : String)
  | lazy (id : Nat) (s : String)
  deriving DecidableEq, Repr

/-- `str(text)`: a lazy text is passed to the translator registered at this moment (`translator.py:11-13`). -/
def Txt.str (tr : Option (String → String)) : Txt → String
  | .plain s => s
  | .lazy _ s => match tr with | some f => f s | none => s

/-- `ErrorMessage` objects (`exceptions.py:102-107`). -/
structure Msg where
  type : Option FKind
  summary : Txt
  info : Option Info

/-- What `errors` of an error is (`_freeze`, `exceptions.py:59-66`), with the identity of the frozen object, on which the hash is cached:
a `FrozenList` of messages (of a `FieldError` of class `cls`, or bare), a `FrozenDict`, and as values of a dict also texts and lists of
texts, which are the caller's objects.  (The contents of frozen objects never change, so that they can stand here.  Simplification: of the
mutable objects a program may put into an error dict, only lists of texts are modelled.) -/
inductive Body
  | list (id : Nat) (cls : Option FKind) (ms : List Nat)
  | text (s : String)
  | raw (a : Nat)
  | node (id : Nat) (kvs : List (Key × Body))

/-- A value of a dict of the caller: an error object, or something else as above. -/
inductive Slot
  | err (e : Nat)
  | other (b : Body)

/-- Error objects: `CompoundError` and `DataError` (`cls = none`) or field errors, with the cached report (`exceptions.py:55-57`). -/
structure Err where
  cls : Option FKind
  body : Body
  report : Option Nat

/-- All objects. -/
structure World where
  tr : Option (String → String)
  msgs : List Msg
  lists : List (List String)
  dicts : List (List (Key × Slot))
  errs : List Err
  prims : List Prim
  hashes : Nat → Option Nat
  next : Nat

/-- Nothing yet. -/
def World.empty : World := ⟨none, [], [], [], [], [], fun _ => none, 0⟩

/-! ## Reports -/

/-- `str(message)` now (`exceptions.py:116-128`). -/
def Msg.str (tr : Option (String → String)) (m : Msg) : String := (Message.mk m.type (m.summary.str tr) m.info).str

mutual
/-- `_to_primitive(errors)` now (`exceptions.py:67-79`). -/
def reportB (w : World) : Body → Prim
  | .list _ _ ms => .list (ms.filterMap fun i => w.msgs[i]?.map fun m => .text (m.str w.tr))
  | .text s => .text s
  | .raw a => .list ((w.lists[a]?.getD []).map .text)
  | .node _ kvs => .dict (reportE w kvs)
/-- The items of a dict. -/
def reportE (w : World) : List (Key × Body) → List (Key × Prim)
  | [] => []
  | (k, b) :: r => (k, reportB w b) :: reportE w r
end

/-- `error.to_primitive()` (`exceptions.py:50-57`): the returned object.  A cached one is returned again. -/
def toPrimitive (w : World) (e : Nat) : World × Option Nat :=
  match w.errs[e]? with
  | none => (w, none)
  | some x =>
    match x.report with
    | some p => (w, some p)
    | none =>
      ({ w with prims := w.prims ++ [reportB w x.body], errs := w.errs.set e { x with report := some w.prims.length } },
        some w.prims.length)

/-! ## Hashes -/

/-- Hashes of the parts: any functions.  (The hash of a message is that of its three attributes, `exceptions.py:145-146`.) -/
structure Hash where
  key : Key → Nat
  text : String → Nat
  message : Option FKind → Txt → Option Info → Nat

/-- `hash(message)` -/
def Hash.msg (h : Hash) (m : Msg) : Nat := h.message m.type m.summary m.info

/-- Keep the hash of a frozen object: `self._hash = _hash` (`datastructures.py:305`, `331`). -/
def remember (c : Nat → Option Nat) (id v : Nat) : Nat → Option Nat := fun j => if j = id then some v else c j

/-- The end of `__hash__` of a frozen object: the computed hash is kept unless computing it failed. -/
def finish (id : Nat) : (Nat → Option Nat) × Option Nat → (Nat → Option Nat) × Option Nat
  | (c, some v) => (remember c id v, some v)
  | (c, none) => (c, none)

/-- The XOR of the hashes of the messages (`datastructures.py:328-330`). -/
def hashMsgs (h : Hash) (w : World) (ms : List Nat) : Nat :=
  ms.foldl (fun a i => match w.msgs[i]? with | some m => a ^^^ h.msg m | none => a) 0

mutual
/-- `hash(errors)` (`datastructures.py:299-306`, `326-333`, `exceptions.py:87-88`) with the hashes kept so far; the result is `none` for
`TypeError` (a list is not hashable). -/
def hashB (h : Hash) (w : World) (c : Nat → Option Nat) : Body → (Nat → Option Nat) × Option Nat
  | .list id _ ms =>
    match c id with
    | some v => (c, some v)
    | none => (remember c id (hashMsgs h w ms), some (hashMsgs h w ms))
  | .text s => (c, some (h.text s))
  | .raw _ => (c, none)
  | .node id kvs =>
    match c id with
    | some v => (c, some v)
    | none => finish id (hashE h w c 0 kvs)
/-- The loop over the items of a `FrozenDict`. -/
def hashE (h : Hash) (w : World) (c : Nat → Option Nat) (a : Nat) : List (Key × Body) → (Nat → Option Nat) × Option Nat
  | [] => (c, some a)
  | (k, b) :: r =>
    match hashB h w c b with
    | (c', some v) => hashE h w c' ((a ^^^ h.key k) ^^^ v) r
    | (c', none) => (c', none)
end

/-- `hash(error)` (`exceptions.py:87-88`). -/
def hashErr (h : Hash) (w : World) (e : Nat) : World × Option Nat :=
  match w.errs[e]? with
  | none => (w, none)
  | some x => ({ w with hashes := (hashB h w w.hashes x.body).1 }, (hashB h w w.hashes x.body).2)

/-! ## Construction -/

/-- What is passed to the constructor of a field error: a text or lazy text, a tuple (or keyword arguments), a message object, an error. -/
inductive Arg
  | text (t : Txt)
  | pair (t : Txt) (i : Option Info)
  | message (m : Nat)
  | error (e : Nat)

/-- The messages of one item (`exceptions.py:170-181`): texts are translated now, tuples are taken as they are, message objects and the
messages of an error of the class are shared.  `none`: `TypeError`. -/
def takeArg (cls : FKind) (tr : Option (String → String)) (errs : List Err) (msgs : List Msg) : Arg → Option (List Msg × List Nat)
  | .text t => some (msgs ++ [⟨none, .plain (t.str tr), none⟩], [msgs.length])
  | .pair t i => some (msgs ++ [⟨none, t, i⟩], [msgs.length])
  | .message m => if m < msgs.length then some (msgs, [m]) else none
  | .error e =>
    match errs[e]? with
    | some ⟨some c, .list _ _ ms, _⟩ => if FKind.isA c cls then some (msgs, ms) else none
    | _ => none

/-- The loop over the items (`exceptions.py:169-181`). -/
def takeArgs (cls : FKind) (tr : Option (String → String)) (errs : List Err) : List Msg → List Arg → Option (List Msg × List Nat)
  | msgs, [] => some (msgs, [])
  | msgs, a :: r =>
    match takeArg cls tr errs msgs a with
    | none => none
    | some (msgs', ms) =>
      match takeArgs cls tr errs msgs' r with
      | none => none
      | some (msgs'', ms') => some (msgs'', ms ++ ms')

/-- `error.type = self.type or type(self)` (`exceptions.py:182-183`), for one message object. -/
def retype (t : FKind) (msgs : List Msg) (i : Nat) : List Msg := msgs.modify i fun m => { m with type := some t }

/-- `ConversionError(items)` etc. (`exceptions.py:153-185`); without items, `TypeError`. -/
def newField (w : World) (cls : FKind) (args : List Arg) : World × Option Nat :=
  if args = [] then (w, none)
  else match takeArgs cls w.tr w.errs w.msgs args with
    | none => (w, none)
    | some (msgs, ms) =>
      ({ w with msgs := ms.foldl (retype (FKind.msgType cls)) msgs,
                errs := w.errs ++ [⟨some cls, .list w.next (some cls) ms, none⟩], next := w.next + 1 }, some w.errs.length)

/-- What `CompoundError.__init__` makes of one value of the caller's dict (`exceptions.py:219-223`): a compound error is replaced by its
frozen dict. -/
def settle (errs : List Err) : Slot → Slot
  | .err e =>
    match errs[e]? with
    | some ⟨none, b, _⟩ => .other b
    | _ => .err e
  | .other b => .other b

/-- What the frozen dict holds for a value. -/
def held (errs : List Err) : Slot → Body
  | .err e => match errs[e]? with | some x => x.body | none => .text ""
  | .other b => b

/-- `CompoundError(d)` and `DataError(d)` (`exceptions.py:215-233`) for a dict of the caller, which is changed by the way.
(`partial_data` is not modelled.) -/
def newCompound (w : World) (d : Nat) : World × Option Nat :=
  match w.dicts[d]? with
  | none => (w, none)
  | some kvs =>
    ({ w with dicts := w.dicts.set d (kvs.map fun kv => (kv.1, settle w.errs kv.2)),
              errs := w.errs ++ [⟨none, .node w.next (kvs.map fun kv => (kv.1, held w.errs kv.2)), none⟩],
              next := w.next + 1 }, some w.errs.length)

/-! ## Histories -/

/-- What a program can put into a dict: an error object, a text, a list of its own, the `errors` of an error. -/
inductive Given
  | err (e : Nat)
  | text (s : String)
  | raw (a : Nat)
  | errorsOf (e : Nat)

/-- The value put into the dict, if the objects exist (`error.errors`, `exceptions.py:46-48`: the frozen object, no longer of a class). -/
def given (w : World) : Given → Option Slot
  | .err e => if e < w.errs.length then some (.err e) else none
  | .text s => some (.other (.text s))
  | .raw a => if a < w.lists.length then some (.other (.raw a)) else none
  | .errorsOf e =>
    match w.errs[e]? with
    | some ⟨_, .list id _ ms, _⟩ => some (.other (.list id none ms))
    | some ⟨_, b, _⟩ => some (.other b)
    | none => none

/-- The items of a dict display, in order; later values for a key win. -/
def givenAll (w : World) : List (Key × Given) → List (Key × Slot) → Option (List (Key × Slot))
  | [], acc => some acc
  | (k, g) :: r, acc =>
    match given w g with
    | some s => givenAll w r (Dict.set acc k s)
    | none => none

/-- What a program can do with these objects. -/
inductive Event
  | translator (tr : Option (String → String))
  | message (t : Txt) (i : Option Info)
  | edit (m : Nat) (t : Txt) (i : Option Info)
  | newList (xs : List String)
  | setList (a : Nat) (xs : List String)
  | newDict (kvs : List (Key × Given))
  | setDict (d : Nat) (k : Key) (g : Given)
  | field (cls : FKind) (args : List Arg)
  | compound (d : Nat)
  | report (e : Nat)
  | hash (e : Nat)
  | smash (p : Nat) (v : Prim)

/-- One event: `register_translator` (`translator.py:31-32`), the creation and modification of objects of the caller, the errors, their
reports and hashes.  (Events that name objects which do not exist have no effect.) -/
def step (h : Hash) (w : World) : Event → World
  | .translator tr => { w with tr := tr }
  | .message t i => { w with msgs := w.msgs ++ [⟨none, t, i⟩] }
  | .edit m t i => { w with msgs := w.msgs.modify m fun x => { x with summary := t, info := i } }
  | .newList xs => { w with lists := w.lists ++ [xs] }
  | .setList a xs => { w with lists := w.lists.set a xs }
  | .newDict kvs =>
    match givenAll w kvs [] with
    | some kvs => { w with dicts := w.dicts ++ [kvs] }
    | none => w
  | .setDict d k g =>
    match given w g with
    | some s => { w with dicts := w.dicts.modify d fun kvs => Dict.set kvs k s }
    | none => w
  | .field cls args => (newField w cls args).1
  | .compound d => (newCompound w d).1
  | .report e => (toPrimitive w e).1
  | .hash e => (hashErr h w e).1
  | .smash p v => { w with prims := w.prims.set p v }

/-- A history. -/
def run (h : Hash) (w : World) (es : List Event) : World := es.foldl (step h) w

end Verif.Lib.ErrorHeap
