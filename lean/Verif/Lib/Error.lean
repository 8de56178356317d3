import Verif.Py.Val

/-!
# Error objects: `exceptions.py`, `FrozenDict` and `FrozenList` of `datastructures.py`
-/
namespace Verif.Lib

/-- The `info` of a message (`exceptions.py:104-107`): modelled as text or int (or, in `Message`, `None`). -/
inductive Info
  | text (s : String)
  | int (i : Int)
  deriving DecidableEq, Repr

/-- `ErrorMessage` (`exceptions.py:102-146`). -/
structure Message where
  type : Option FKind
  summary : String
  info : Option Info
  deriving DecidableEq, Repr

/-- What an error dict holds: a `FieldError` object or (class `none`) the bare `FrozenList` of its messages (`validate.py:98`), a bare text
(`'Rogue field'`, `transforms.py:114`), a `FrozenDict` (of a nested compound error, `exceptions.py:219-224`). -/
inductive Tree
  | field (cls : Option FKind) (ms : List Message)
  | text (s : String)
  | node (kvs : List (Key × Tree))

/-! ## Equality -/

/-- `FrozenList(ms) == s` for a text `s`: lengths, then messages against characters (`datastructures.py:340-346`; an `ErrorMessage` equals a
text that equals its summary, `exceptions.py:137-138`). -/
def msgsText : List Message → List Char → Bool
  | [], [] => true
  | m :: ms, c :: cs => m.summary == String.ofList [c] && msgsText ms cs
  | _, _ => false

/-- `m == t` for a message and something held by an error dict (`exceptions.py:130-140`). -/
def msgTree (m : Message) : Tree → Bool
  | .text s => m.summary == s
  | _ => false

/-- The loop of `FrozenList(ms) == FrozenDict(b)` (`datastructures.py:340-346`): `other[i]` raises `KeyError` (`none`) for a missing key. -/
def msgsDict : Nat → List Message → List (Key × Tree) → Option Bool
  | _, [], _ => some true
  | i, m :: ms, b =>
    match Dict.get? b (Key.int i) with
    | none => none
    | some t => if msgTree m t then msgsDict (i + 1) ms b else some false

/-- `FrozenList(ms) == FrozenDict(b)` -/
def listDict (ms : List Message) (b : List (Key × Tree)) : Option Bool :=
  if ms.length ≠ b.length then some false else msgsDict 0 ms b

mutual
/-- `a == b` (`exceptions.py:90-95`, `datastructures.py:285-346`, `collections.abc.Mapping.__eq__`); `none`: an exception is raised.
Both orders of a field error against a dict end up in `FrozenList.__eq__`; two field errors of whatever classes in the comparison of their
message lists. -/
def eqT : Tree → Tree → Option Bool
  | .field _ ms, .field _ ms' => some (ms == ms')
  | .field _ ms, .text s => some (msgsText ms s.toList)
  | .text s, .field _ ms => some (msgsText ms s.toList)
  | .field _ ms, .node b => listDict ms b
  | .node a, .field _ ms => listDict ms a
  | .text s, .text s' => some (s == s')
  | .text _, .node _ => some false
  | .node _, .text _ => some false
  | .node a, .node b => if a.length ≠ b.length then some false else eqEntries a b
/-- `dict == dict` for dicts of the same length: every key of the first is in the second with an equal value. -/
def eqEntries : List (Key × Tree) → List (Key × Tree) → Option Bool
  | [], _ => some true
  | (k, v) :: r, b =>
    match Dict.get? b k with
    | none => some false
    | some w =>
      match eqT v w with
      | some true => eqEntries r b
      | r => r
end

/-! ## Hashes -/

/-- Hashes of the parts: any functions. -/
structure Hashes where
  key : Key → Nat
  text : String → Nat
  message : Message → Nat

mutual
/-- `hash(t)`: `FrozenDict.__hash__`, `FrozenList.__hash__` (`datastructures.py:299-306`, `326-332`), `BaseError.__hash__`
(`exceptions.py:145-146`). -/
def hashT (h : Hashes) : Tree → Nat
  | .field _ ms => ms.foldl (fun a m => a ^^^ h.message m) 0
  | .text s => h.text s
  | .node a => hashEntries h a
/-- The loop over the items of a dict; XOR of all hashes. -/
def hashEntries (h : Hashes) : List (Key × Tree) → Nat
  | [] => 0
  | (k, v) :: r => (h.key k ^^^ hashT h v) ^^^ hashEntries h r
end

/-! ## Plain data -/

/-- The result of `to_primitive`: texts, lists and dicts. -/
inductive Prim
  | text (s : String)
  | list (xs : List Prim)
  | dict (kvs : List (Key × Prim))

/-- `str(message)` (`exceptions.py:116-128`) -/
def Message.str (m : Message) : String :=
  match m.info with
  | some (.text i) => if i = "" then m.summary else m.summary ++ ": \"" ++ i ++ "\""
  | some (.int i) => if i = 0 then m.summary else m.summary ++ ": " ++ toString i
  | none => m.summary

mutual
/-- `BaseError._to_primitive` (`exceptions.py:67-79`); a `FieldError` is a sequence of its messages. -/
def toPrim : Tree → Prim
  | .text s => .text s
  | .field _ ms => .list (ms.map fun m => .text m.str)
  | .node kvs => .dict (toPrimEntries kvs)
/-- The items of a mapping. -/
def toPrimEntries : List (Key × Tree) → List (Key × Prim)
  | [] => []
  | (k, v) :: r => (k, toPrim v) :: toPrimEntries r
end

/-! ## Construction -/

/-- Error objects: what can be passed to the constructors. -/
inductive Item
  | text (s : String)
  | pair (summary : String) (info : Option Info)
  | message (m : Message)
  | error (cls : FKind) (ms : List Message)
  | other

/-- `type(self)` resp. the class attribute `type`: messages of a `StopValidationError` are of type `ValidationError`
(`exceptions.py:210-212`). -/
def FKind.msgType : FKind → FKind
  | .conv => .conv
  | .valid => .valid
  | .stop => .valid

/-- `isinstance(item, self.__class__)`: `StopValidationError` is a `ValidationError`. -/
def FKind.isA : FKind → FKind → Bool
  | .conv, .conv => true
  | .valid, .valid => true
  | .stop, .stop => true
  | .stop, .valid => true
  | _, _ => false

/-- The messages of one item (`exceptions.py:170-181`); `none` is `TypeError`. -/
def itemMessages (cls : FKind) : Item → Option (List Message)
  | .text s => some [⟨none, s, none⟩]
  | .pair s i => some [⟨none, s, i⟩]
  | .message m => some [m]
  | .error c ms => if FKind.isA c cls then some ms else none
  | .other => none

/-- The loop over the items. -/
def allMessages (cls : FKind) : List Item → Option (List Message)
  | [] => some []
  | i :: r =>
    match itemMessages cls i, allMessages cls r with
    | some a, some b => some (a ++ b)
    | _, _ => none

/-- `FieldError(items)` (`exceptions.py:153-185`): all messages get the type of the new error.  (The messages of a nested error are the same
objects in Python, so that they change their type too; not modelled.) -/
def mkField (cls : FKind) (items : List Item) : Option (List Message) :=
  (allMessages cls items).map fun ms => ms.map fun m => { m with type := some (FKind.msgType cls) }

/-- A value of an error dict passed to `CompoundError`: something that may be held, or a compound error object. -/
inductive Raised
  | held (t : Tree)
  | compound (kvs : List (Key × Tree))

/-- `CompoundError.__init__` on one value (`exceptions.py:219-224`): a nested compound error is replaced by its error dict. -/
def Raised.flat : Raised → Tree
  | .held t => t
  | .compound kvs => .node kvs

/-- `CompoundError(errors).errors` -/
def mkCompound (kvs : List (Key × Raised)) : List (Key × Tree) := kvs.map fun kv => (kv.1, kv.2.flat)

mutual
/-- The error object raised for an error structure of the import and validation model (`Core/`): compound errors are built from the
inside out. -/
def raiseTree : ErrTree → Raised
  | .leaf k ms => .held (.field (some k) (ms.map fun m => ⟨some (FKind.msgType k), m, none⟩))
  | .rogue => .held (.text "Rogue field")
  | .msgs ms => .held (.field none (ms.map fun m => ⟨some .valid, m, none⟩))
  | .node es => .compound (mkCompound (raiseEntries es))
/-- The entries of a compound error. -/
def raiseEntries : List (Key × ErrTree) → List (Key × Raised)
  | [] => []
  | (k, t) :: r => (k, raiseTree t) :: raiseEntries r
end

end Verif.Lib
