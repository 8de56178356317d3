import Mathlib.Tactic.Common

/-!
# The state machine of `contrib/machine.py`
-/
namespace Verif.Lib.Machine

/-- An entry of `transitions` (`contrib/machine.py:16-21`); the entry for `init` has no `from`. -/
structure Transition where
  trigger : String
  src : Option String
  dst : String
deriving DecidableEq, Repr

/-- `Machine.transitions` (`contrib/machine.py:16-21`). -/
def transitions : List Transition :=
  [⟨"init", none, "raw"⟩, ⟨"convert", some "raw", "converted"⟩, ⟨"validate", some "converted", "validated"⟩,
    ⟨"serialize", some "validated", "serialized"⟩]

/-- The transformations of the pipeline with their arguments (`contrib/machine.py:22-26`): arbitrary functions that may raise. -/
structure Callbacks (D E : Type) where
  convert : D → Except E D
  validate : D → Except E D
  serialize : D → Except E D

/-- `self.callbacks.get(trigger)` (`contrib/machine.py:22-26`, `56`). -/
def Callbacks.find {D E : Type} (cb : Callbacks D E) (trigger : String) : Option (D → Except E D) :=
  if trigger = "convert" then some cb.convert
  else if trigger = "validate" then some cb.validate
  else if trigger = "serialize" then some cb.serialize
  else none

/-- The state and the data of a machine (`contrib/machine.py:28-31`). -/
structure Machine (D : Type) where
  state : String
  data : D
deriving DecidableEq, Repr

/-- The predicate of `_transitions` for one key (`contrib/machine.py:44-45`): an argument that is `None` does not restrict. -/
def matchesArg (value : Option String) (arg : Option String) : Bool :=
  match arg with
  | none => true
  | some a => value == some a

/-- `_transition` (`contrib/machine.py:36-50`): the first entry that fits. -/
def transition (trigger src dst : Option String) : Option Transition :=
  transitions.find? fun d => matchesArg (some d.trigger) trigger && matchesArg d.src src && matchesArg (some d.dst) dst

/-- `Machine(data)` (`contrib/machine.py:28-31`): the state is the target of the `init` entry. -/
def start {D : Type} (data : D) : Option (Machine D) :=
  (transition (some "init") none none).map fun t => ⟨t.dst, data⟩

/-- The result of a trigger: `AttributeError`, the exception of the transformation, or success. -/
inductive Outcome (E : Type)
  | attributeError
  | raised (e : E)
  | done
deriving DecidableEq, Repr

/-- `m.trigger(name)`, also `m.name()` (`contrib/machine.py:33-34`, `52-58`).  Returns the machine afterwards, whatever happened. -/
def fire {D E : Type} (cb : Callbacks D E) (m : Machine D) (name : String) : Machine D × Outcome E :=
  match transition (some name) (some m.state) none with
  | none => (m, .attributeError)
  | some t =>
    match cb.find name with
    | none => ({ m with state := t.dst }, .done)
    | some f =>
      match f m.data with
      | .error e => (m, .raised e)
      | .ok d => ({ state := t.dst, data := d }, .done)

/-- `m.can(state)` (`contrib/machine.py:60-61`). -/
def can {D : Type} (m : Machine D) (state : String) : Bool := (transition none (some m.state) (some state)).isSome

/-- A sequence of triggers, each of which may fail. -/
def fireAll {D E : Type} (cb : Callbacks D E) (m : Machine D) : List String → Machine D
  | [] => m
  | n :: r => fireAll cb (fire cb m n).1 r

end Verif.Lib.Machine
