import Verif.Lib.Context

/-!
# One context used by several calls at the same time

The start of `import_loop` and `export_loop` (`transforms.py:67-88`, `232-246`) with `Context._setdefaults` (`datastructures.py:141-147`) as threads that share one context object.  A thread's
visible actions are: the test for `initialized`; the copy of the attributes; the update of the attributes; the reading of one option.  Copying and updating a dict with text keys are single actions, as
in CPython.  Any interleaving of any number of threads is allowed.
-/
namespace Verif.Lib

/-- Where a call is. -/
inductive Caller
  /-- before `context.initialized` (`transforms.py:69`, `234`), with these arguments -/
  | test (args : Opts)
  /-- before `new_values.update(self.__dict__)` (`datastructures.py:145`); `new_values` is a copy of the arguments -/
  | merge (args : Opts)
  /-- before `self.__dict__.update(new_values)` (`datastructures.py:146`) -/
  | write (new : Opts)
  /-- the loop is running; the options read so far and what was found, the latest first (`none` is `AttributeError`) -/
  | run (log : List (String × Option Val))

/-- One action of a call: the attributes of the context afterwards, and where the call is (`transforms.py:67-88`, `datastructures.py:141-147`); a running loop reads the option `k`. -/
def callerAct (k : String) (c : Opts) : Caller → Opts × Caller
  | .test a => (c, if c.has "initialized" then .run [] else .merge a)
  | .merge a => (c, .write (Dict.update a c))
  | .write nv => (Dict.update c nv, .run [])
  | .run log => (c, .run ((k, Dict.get? c k) :: log))

/-- The context and the calls which use it. -/
structure Shared where
  ctx : Opts
  calls : List Caller

/-- Call `i` performs its next action (reading option `k`, if its loop is running). -/
def Shared.step (s : Shared) (e : Nat × String) : Shared :=
  match s.calls[e.1]? with
  | some p => ⟨(callerAct e.2 s.ctx p).1, s.calls.set e.1 (callerAct e.2 s.ctx p).2⟩
  | none => s

/-- A schedule. -/
def Shared.run (s : Shared) (es : List (Nat × String)) : Shared := es.foldl Shared.step s

end Verif.Lib
