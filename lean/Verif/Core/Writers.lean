import Verif.Core.Readers

/-!
# Several threads assign and read fields of one instance

Any number of threads, each with a program of its own, assign and read fields of one model instance.  An assignment is two steps: the dict `_converted` is looked up, then the entry is stored into it
(`models.py:55-61`); a reading is the twelve steps of `Core/Readers`.  Any schedule of the steps is possible.

Simplification: the fields are not calculated; the threads call no other methods of the instance meanwhile.
-/
namespace Verif

/-- What a thread does with the instance. -/
inductive Access
  /-- `m.name = v` -/
  | set (name : String) (v : Val)
  /-- `m.name` -/
  | get (name : String)

/-- Where a thread is. -/
inductive Doing
  /-- not in a call -/
  | idle
  /-- before the store of `instance._data.converted[self.name] = value` (`models.py:61`), after the dict was looked up -/
  | storing (name : String) (w : Val) (into : Nat)
  /-- in `FieldDescriptor.__get__` (`models.py:41-53`), with the moments at which its steps happened -/
  | reading (name : String) (moments : List Cells)

/-- A thread: what it does next, given what it did and what came of it; what it did so far; where it is. -/
structure Worker where
  program : List (Access × R Val) → Option Access
  done : List (Access × R Val) := []
  now : Doing := .idle

/-- The instance and its threads. -/
structure Office where
  cells : Cells
  workers : Nat → Worker

/-- The call of a thread ends. -/
def Worker.finish (W : Worker) (a : Access) (r : R Val) : Worker := { W with done := W.done ++ [(a, r)], now := .idle }

/-- The beginning of a call: for an assignment `pre_setattr` and the lookup of the dict (`models.py:55-61`); for a reading its first step (`models.py:41-53`). -/
def Worker.begin_ (env : Env) (n : Nat) (c : ClassDef) (s : Cells) (W : Worker) : Access → Worker
  | .set name v =>
    match c.field? name with
    | none => W.finish (.set name v) (.error (.other "AttributeError"))
    | some fd =>
      match preSet env n fd.field v with
      | .error e => W.finish (.set name v) (.error e)
      | .ok w => { W with now := .storing name w s.attrs.converted }
  | .get name =>
    match c.field? name with
    | none => W.finish (.get name) (.error (.other "AttributeError"))
    | some _ => { W with now := .reading name [s] }

/-- The access under way. -/
def Worker.current (W : Worker) : Option Access := W.program W.done

/-- One step of a thread: the thread and the cells afterwards (`models.py:41-61`). -/
def Worker.step (env : Env) (n : Nat) (c : ClassDef) (s : Cells) (W : Worker) : Worker × Cells :=
  match W.current with
  | none => (W, s)
  | some a =>
    match W.now with
    | .idle => (W.begin_ env n c s a, s)
    | .storing name w into => (W.finish a (.ok .none), { s with heap := s.heap.wr into ((s.heap.rd into).set (.str name) w) })
    | .reading name ms =>
      if ms.length < 11 then ({ W with now := .reading name (ms ++ [s]) }, s)
      else (W.finish a (readBy (fun i => (ms ++ [s])[i]?.getD s) name), s)

/-- Thread `i` makes a step. -/
def Office.step (env : Env) (n : Nat) (c : ClassDef) (O : Office) (i : Nat) : Office where
  cells := ((O.workers i).step env n c O.cells).2
  workers j := if j = i then ((O.workers i).step env n c O.cells).1 else O.workers j

/-- A schedule. -/
def Office.run (env : Env) (n : Nat) (c : ClassDef) (O : Office) (schedule : List Nat) : Office := schedule.foldl (Office.step env n c) O

end Verif
