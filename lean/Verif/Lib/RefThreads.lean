import Verif.Lib.ImportString

/-!
# Several threads resolving one model reference

`ModelType.model_class` (`types/compound.py:101-108`) and `ModelType._setup` (`types/compound.py:133-138`) as threads whose visible actions are the reads and writes of `_model_class` and the call of
`import_string`; any interleaving of the actions of any number of threads is allowed, and the import system may be in a different state at every action.
-/
namespace Verif.ImportString

/-- Where a thread is. -/
inductive Pc
  /-- before `if self._model_class` (`types/compound.py:103`) -/
  | start
  /-- before `return self._model_class` (`types/compound.py:104`) -/
  | again
  /-- before `import_string(self.model_name)` (`types/compound.py:106`) -/
  | load
  /-- before `self._model_class = model_class` (`types/compound.py:107`) -/
  | store (o : Obj)
  /-- `model_class` has returned (`none` is `None`) or raised -/
  | done (r : Option Found)
  /-- before the test of `_setup` for a class (`types/compound.py:135-136`) -/
  | setup (ownerName : String) (owner : Obj)
  /-- before `self._model_class = owner_model` (`types/compound.py:137`) -/
  | assign (owner : Obj)
  /-- `_setup` has finished -/
  | set
deriving DecidableEq, Repr

/-- `bool(self._model_class)` (`types/compound.py:103`, `135`). -/
def resolved (truthy : Obj → Bool) : Option Obj → Bool
  | some o => truthy o
  | none => false

/-- One action of a thread: what `_model_class` is afterwards and where the thread is (`types/compound.py:101-108`, `133-138`). -/
def act (truthy : Obj → Bool) (name : String) (M : Modules) (cell : Option Obj) : Pc → Option Obj × Pc
  | .start => (cell, if resolved truthy cell then .again else .load)
  | .again => (cell, .done (cell.map Found.obj))
  | .load =>
    match importString M name with
    | .obj o => (cell, .store o)
    | .notFound => (cell, .done (some .notFound))
    | .raised e => (cell, .done (some (.raised e)))
  | .store o => (some o, .done (some (.obj o)))
  | .done r => (cell, .done r)
  | .setup on o => (cell, if !resolved truthy cell && name == on then .assign o else .set)
  | .assign o => (some o, .set)
  | .set => (cell, .set)

/-- The reference and the threads using it. -/
structure Sys where
  cell : Option Obj
  threads : List Pc
deriving DecidableEq, Repr

/-- Thread `i` performs its next action, while the import system is `M`. -/
def Sys.step (truthy : Obj → Bool) (name : String) (s : Sys) (e : Nat × Modules) : Sys :=
  match s.threads[e.1]? with
  | some p => ⟨(act truthy name e.2 s.cell p).1, s.threads.set e.1 (act truthy name e.2 s.cell p).2⟩
  | none => s

/-- A schedule. -/
def Sys.run (truthy : Obj → Bool) (name : String) (s : Sys) (es : List (Nat × Modules)) : Sys := es.foldl (Sys.step truthy name) s

end Verif.ImportString
