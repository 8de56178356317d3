import Verif.Core.Schema

/-!
# Roles

Models `schematics/role.py` and the constructors `wholelist`, `whitelist`,
`blacklist` (`transforms.py:304-330`).  A role holds a set of names (a list
without order significance here) and one of the three static filter functions.
-/
namespace Verif

/-- The static filter functions (`role.py:66-116`). -/
inductive RoleKind
  | whole
  | white
  | black
  deriving DecidableEq, Repr

/-- A `Role` (`role.py:11-28`): function and set of fields.  `set(fields)` is a
list here; only membership and emptiness are observed. -/
structure Role where
  kind : RoleKind
  fields : List String

namespace Role

/-- `Role.__call__` (`role.py:62-64`) with the static functions of
`role.py:66-116`; `true` means "skip this field". -/
def skip (r : Role) (name : String) : Bool :=
  match r.kind with
  | .whole => false
  | .white => if r.fields.length > 0 then !r.fields.contains name else true
  | .black => if r.fields.length > 0 then r.fields.contains name else false

/-- The role as the filter function used by the export loop. -/
def fn (r : Role) : RoleFn := fun name _ => r.skip name

/-- `role + names` (`role.py:54-56`). -/
def add (r : Role) (names : List String) : Role := ⟨r.kind, r.fields ++ names⟩

/-- `role - names` (`role.py:58-60`). -/
def sub (r : Role) (names : List String) : Role := ⟨r.kind, r.fields.filter fun f => !names.contains f⟩

/-- `name in role` (`role.py:33-34`). -/
def mem (r : Role) (name : String) : Bool := r.fields.contains name

/-- `role & other` inherited from `collections.abc.Set`:
`_from_iterable(value for value in other if value in self)`. -/
def inter (r : Role) (names : List String) : Role := ⟨r.kind, names.filter fun f => r.fields.contains f⟩

/-- `role | other` inherited from `collections.abc.Set`:
`_from_iterable(e for s in (self, other) for e in s)`. -/
def union (r : Role) (names : List String) : Role := ⟨r.kind, r.fields ++ names⟩

/-- `role ^ other` inherited from `collections.abc.Set`:
`(self - other) | (other - self)` with the function of `self`. -/
def xor (r s : Role) : Role := (r.sub s.fields).union (s.sub r.fields).fields

/-- `role <= other` inherited from `collections.abc.Set` (`len(self) > len(other)`
is decided by membership as both are sets). -/
def le (r s : Role) : Bool := r.fields.all s.fields.contains

/-- `Role.__eq__` (`role.py:42-44`): same function name and equal sets. -/
def eq (r s : Role) : Bool :=
  (r.kind == s.kind) && r.fields.all s.fields.contains && s.fields.all r.fields.contains

end Role
end Verif
