import Verif.Py.Val

/-!
# Calling validators: `prepare_validator` (`validate.py:120-134`)

A validator is a Python callable.  What matters is which parameters it declares, as `inspect.getfullargspec(func).args` reports them, and which
calls Python accepts.

Simplifications: keyword-only parameters and parameters that are filled by name other than `context` are not modelled; `functools.partial`
objects and C functions without a signature (for which `getfullargspec` raises) are not modelled.
-/
namespace Verif.Lib.Callable

/-- A Python callable. -/
structure Func where
  /-- the positional parameters it declares, in order: `getfullargspec(func).args`.  For a bound method, a class or an object with `__call__`
  this includes `self`. -/
  params : List String
  /-- how many of the last ones have a default value -/
  defaults : Nat := 0
  /-- declares `*args` -/
  varargs : Bool := false
  /-- the first parameter is filled by Python itself (bound method, callable object) -/
  bound : Bool := false

/-- The positional parameters a caller can fill. -/
def Func.open (f : Func) : List String := if f.bound then f.params.drop 1 else f.params

variable {α : Type}

/-- Python's rule for a call with positional arguments `args` and possibly `context=c`: the arguments the body receives, by name (`none`
stands for an element of `*args`), or `none` for a `TypeError`.  (Python runtime; `validate.py:133`.) -/
def Func.call (f : Func) (args : List α) (kw : Option α) : Option (List (Option String × α)) :=
  let ps := f.open
  let n := args.length
  if ps.length < n ∧ f.varargs = false then none
  else
    let pos := (ps.map some ++ List.replicate (n - ps.length) none).zip args
    let rest := ps.drop n
    match kw with
    | none => if rest.length ≤ f.defaults then some pos else none
    | some c =>
      if "context" ∈ rest then
        -- every other parameter that is still open needs a default value
        if ∀ i < rest.length, rest[i]? = some "context" ∨ rest.length - f.defaults ≤ i then some (pos ++ [(some "context", c)]) else none
      else none

/-- A callable as the library holds it: a function of the user, or a wrapper made by `prepare_validator` (`validate.py:128-134`). -/
inductive Ready
  | user (f : Func)
  | wrapped (inner : Ready)

/-- What `inspect.getfullargspec(func).args` reports (`validate.py:124`); for a wrapper, which is declared as `(*args, **kwargs)`, nothing: the
function does not follow `__wrapped__`. -/
def Ready.spec : Ready → List String
  | .user f => f.params
  | .wrapped _ => []

/-- `prepare_validator(func, argcount)` (`validate.py:120-134`).  A `classmethod` object is replaced by its function (`validate.py:121-122`), which
is how the caller of this definition must pass it: as an unbound `Func`. -/
def prepare (r : Ready) (argcount : Nat) : Ready :=
  if r.spec.length < argcount then .wrapped r else r

/-- Calling it (`validate.py:129-134`).  `isZero c` is Python's `c == 0`. -/
def Ready.call (isZero : α → Bool) : Ready → List α → Option α → Option (List (Option String × α))
  | .user f, args, kw => f.call args kw
  | .wrapped r, args, none => r.call isZero args.dropLast none
  | .wrapped r, args, some c => if isZero c then r.call isZero args.dropLast none else r.call isZero args none

end Verif.Lib.Callable
