import Verif.Core.Instance

/-!
# Iterating over the atoms of a model (`iteration.py`)
-/
namespace Verif.Lib.Atoms

open Verif

/-- `Atom` (`iteration.py:20-21`): `none` stands for `None`, a member that was not asked for. -/
structure Atom where
  name : Option String
  field : Option FieldDef
  value : Val

/-- `mapping[field_name]` with every exception read as `Undefined` (`iteration.py:63-67`); `none` is a lookup that raises. -/
def readValue (mapping : Option (String → R Val)) (hasValue : Bool) (name : String) : Val :=
  match mapping with
  | none => .undef
  | some m =>
    if hasValue then
      match m name with
      | .ok v => v
      | .error _ => .undef
    else .undef

/-- One atom (`iteration.py:60-72`). -/
def atomOf (mapping : Option (String → R Val)) (keys : List String) (fd : FieldDef) : Atom where
  name := if "name" ∈ keys then some fd.name else none
  field := if "field" ∈ keys then some fd else none
  value := readValue mapping (decide ("value" ∈ keys)) fd.name

/-- `filter(atom)` (`iteration.py:73-76`). -/
def keep (filter : Option (Atom → Bool)) (a : Atom) : Bool :=
  match filter with
  | none => true
  | some f => f a

/-- The loop (`iteration.py:58-76`). -/
def loop (mapping : Option (String → R Val)) (keys : List String) (filter : Option (Atom → Bool)) : List FieldDef → List Atom
  | [] => []
  | fd :: r =>
    if keep filter (atomOf mapping keys fd) then atomOf mapping keys fd :: loop mapping keys filter r
    else loop mapping keys filter r

/-- `atoms(schema, mapping, keys, filter)` (`iteration.py:24-76`), consumed completely. -/
def atoms (fields : List FieldDef) (mapping : Option (String → R Val)) (keys : List String := ["name", "field", "value"])
    (filter : Option (Atom → Bool) := none) : R (List Atom) :=
  if keys.all (fun k => decide (k ∈ ["name", "field", "value"])) then .ok (loop mapping keys filter fields)
  else .error (.other "TypeError")

/-- `atom_filter.has_setter` (`iteration.py:82-83`): `getattr(None, 'fset', None)` is `None`. -/
def hasSetter (a : Atom) : Bool :=
  match a.field with
  | some fd => fd.fset.isSome
  | none => false

/-- `atom_filter.not_setter` (`iteration.py:86-87`). -/
def notSetter (a : Atom) : Bool := !hasSetter a

/-- `Model.atoms` (`models.py:321-327`). -/
def instAtoms (c : ClassDef) (I : Inst) : R (List Atom) := atoms c.fields (some (I.getItem c))

end Verif.Lib.Atoms
