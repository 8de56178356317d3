import Verif.Py.Val

/-!
# The subclasses of a model: `get_all_subclasses` (`util.py:72-79`)

Classes are numbered in the order of their definition; a class statement can only name classes that exist.
-/
namespace Verif.Lib.Subclass

/-- The bases of every class (`cls.__bases__`). -/
abbrev Hierarchy := List (List Nat)

/-- Every base is defined before the class. -/
def Ok (h : Hierarchy) : Prop := ∀ (i : Nat) (bs : List Nat), h[i]? = some bs → (∀ b ∈ bs, b < i) ∧ bs.Nodup

/-- `cls.__subclasses__()` (Python runtime): the classes that name `c` among their bases, in the order of definition. -/
def direct (h : Hierarchy) (c : Nat) : List Nat :=
  (List.range h.length).filter fun i => match h[i]? with | some bs => bs.contains c | none => false

/-- `get_all_subclasses(cls)` (`util.py:72-79`); the fuel bounds the depth of the recursion, see `all_fuel`. -/
def allSubs (h : Hierarchy) : Nat → Nat → List Nat
  | 0, _ => []
  | n + 1, c => (direct h c).flatMap fun s => s :: allSubs h n s

/-- The same with enough fuel: a chain of subclasses is not longer than the number of classes. -/
def getAllSubclasses (h : Hierarchy) (c : Nat) : List Nat := allSubs h h.length c

end Verif.Lib.Subclass
