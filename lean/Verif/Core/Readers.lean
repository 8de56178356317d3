import Verif.Core.Interrupt

/-!
# Fields read by other threads while a thread runs a call

One thread runs a method of a model instance (the steps are those of `Core/Interrupt`); others read fields of the same instance at the same time.  The *film* of the call are the cells before each of its
steps and at its end.  A reader makes its own steps, each at some moment of the film.

Simplification: one thread writes; readers only read fields that are not calculated.
-/
namespace Verif

/-- The cells seen so far. -/
structure Film where
  frames : List Cells := []

/-- The cells are recorded; no interrupt comes. -/
instance : Watcher Film where
  ask s o := (false, ⟨o.frames ++ [s]⟩)

/-- The cells before every step of the call, and after the last one. -/
def Cells.film (env : Env) (n : Nat) (c : ClassDef) (s : Cells) (x : Op) : List Cells :=
  (Steps.op env n c x s ({} : Film)).2.2.frames ++ [(Steps.op env n c x s ({} : Film)).2.1]

/-- One turn of a loop over `maps`: the mapping is taken from the list at one moment, and searched at another (`datastructures.py:184-187` and `203`; `which` is `maps[0]`, `maps[1]` or `maps[2]`). -/
def probe (which : Cells → Nat) (taken searched : Cells) (k : Key) : Option Val := Dict.get? (searched.heap.rd (which taken)) k

/-- `key in instance._data` (`ChainMap.__contains__`, `datastructures.py:202-203`): six steps at most; `at i` are the cells at the moment of step `i`. -/
def seesKey (moment : Nat → Cells) (k : Key) : Bool :=
  (probe (·.map0) (moment 0) (moment 1) k).isSome || (probe (·.map1) (moment 2) (moment 3) k).isSome || (probe (·.map2) (moment 4) (moment 5) k).isSome

/-- `instance._data[key]` (`ChainMap.__getitem__`, `datastructures.py:183-190`): six steps at most. -/
def seesValue (moment : Nat → Cells) (k : Key) : Option Val :=
  match probe (·.map0) (moment 6) (moment 7) k with
  | some v => some v
  | none =>
    match probe (·.map1) (moment 8) (moment 9) k with
    | some v => some v
    | none => probe (·.map2) (moment 10) (moment 11) k

/-- `instance.name` (`models.py:41-53`) with `ChainMap.get` (`datastructures.py:192-193`), read by a thread whose step `i` happens when the cells are `moment i`.  `KeyError` if the key was seen by
`in` and is gone when `[]` looks for it. -/
def readBy (moment : Nat → Cells) (name : String) : R Val :=
  if seesKey moment (.str name) then
    match seesValue moment (.str name) with
    | some v => definedOr (some v)
    | none => .error (.other "KeyError")
  else definedOr none

/-- The steps of a reader fall into the time of the call, one after the other. -/
def Concurrent (film : List Cells) (moment : Nat → Cells) : Prop :=
  ∃ t : Nat → Nat, (∀ i j, i ≤ j → t i ≤ t j) ∧ ∀ i, film[t i]? = some (moment i)

end Verif
