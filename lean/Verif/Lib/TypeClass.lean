import Verif.Lib.Callable

/-!
# Defining type classes: `TypeMeta` (`types/base.py:89-119`) and the parts of `BaseType.__init__` that use what it collects

Classes are numbered in the order of their definition.  A class is a *type class* if it derives from `BaseType`; the others are plain Python
classes, used as mixins.  The common base `object` is left out: it has none of the attributes in question.
-/
namespace Verif.Lib.TypeClass

open Verif.Lib.Callable

/-- A class: what its definition says, and what Python and `TypeMeta` make of it. -/
structure Cls (μ : Type) where
  bases : List Nat
  /-- the metaclass is `TypeMeta` -/
  isType : Bool
  /-- the `validate_…` functions in the class body -/
  own : Dict String Func
  /-- `MESSAGES` as written in the class body -/
  ownMessages : Option (Dict String μ)
  /-- `__mro__` -/
  mro : List Nat
  /-- the attribute `MESSAGES` in the class's own dictionary -/
  messages : Option (Dict String μ)
  /-- the attribute `_validators` in the class's own dictionary (a dict used as an ordered set) -/
  validators : Option (Dict String Unit)

/-- All classes defined so far. -/
abbrev World (μ : Type) := List (Cls μ)

/-- A class statement. -/
structure Decl (μ : Type) where
  bases : List Nat
  /-- written with `@metaclass(TypeMeta)` (`types/base.py:122`); otherwise the metaclass is inherited -/
  root : Bool := false
  /-- `MESSAGES` in the body -/
  messages : Option (Dict String μ) := none
  /-- the `validate_…` functions in the body, in order -/
  own : Dict String Func := []

/-! ## `__mro__` (Python runtime: C3 linearisation) -/

/-- The first head that is in no tail. -/
def goodHead (all : List (List Nat)) : List (List Nat) → Option Nat
  | [] => none
  | [] :: r => goodHead all r
  | (x :: _) :: r => if all.any fun s => s.tail.contains x then goodHead all r else some x

/-- Remove `x` at the front. -/
def dropHead (x : Nat) : List Nat → List Nat
  | [] => []
  | y :: r => if y = x then r else y :: r

/-- C3 merge, with one unit of fuel per element; see `merge_fuel`. -/
def merge : Nat → List (List Nat) → Option (List Nat)
  | 0, ss => if ss.all List.isEmpty then some [] else none
  | n + 1, ss =>
    if ss.all List.isEmpty then some []
    else
      match goodHead ss ss with
      | none => none
      | some x => (merge n (ss.map (dropHead x))).map (x :: ·)

variable {μ : Type}

/-- The linearisations of the base classes. -/
def basesMro (w : World μ) : List Nat → Option (List (List Nat))
  | [] => some []
  | b :: r =>
    match w[b]?, basesMro w r with
    | some c, some ss => some (c.mro :: ss)
    | _, _ => none

/-- `__mro__` of a new class with the number `n`; `none` is the `TypeError` of an inconsistent hierarchy. -/
def mroOf (w : World μ) (n : Nat) (bases : List Nat) : Option (List Nat) :=
  match basesMro w bases with
  | none => none
  | some ss =>
    let all := ss ++ [bases]
    (merge (all.map List.length).sum all).map (n :: ·)

/-! ## Attribute lookup (Python runtime) -/

/-- The first class along the given list for which the attribute is there. -/
def lookup {β : Type} (w : World μ) (attr : Cls μ → Option β) : List Nat → Option β
  | [] => none
  | i :: r =>
    match (w[i]?).bind attr with
    | some v => some v
    | none => lookup w attr r

/-- `getattr(base, …)` for a class. -/
def classAttr {β : Type} (w : World μ) (attr : Cls μ → Option β) (b : Nat) : Option β :=
  match w[b]? with
  | some c => lookup w attr c.mro
  | none => none

/-! ## `TypeMeta.__new__` -/

/-- The loop over the reversed base classes, for the messages (`types/base.py:100-102`). -/
def inheritMessages (w : World μ) (acc : Dict String μ) : List Nat → Dict String μ
  | [] => acc
  | b :: r =>
    match classAttr w Cls.messages b with
    | some m => inheritMessages w (acc.update m) r
    | none => inheritMessages w acc r

/-- The same loop, for the validators (`types/base.py:104-105`). -/
def inheritValidators (w : World μ) (acc : Dict String Unit) : List Nat → Dict String Unit
  | [] => acc
  | b :: r =>
    match classAttr w Cls.validators b with
    | some m => inheritValidators w (acc.update m) r
    | none => inheritValidators w acc r

/-- The class has the metaclass `TypeMeta`, directly or through a base. -/
def isTypeClass (w : World μ) (d : Decl μ) : Bool := d.root || d.bases.any fun b => match w[b]? with | some c => c.isType | none => false

/-- A class statement (`types/base.py:96-119`; for a plain class, Python's `type.__new__`). -/
def define (w : World μ) (d : Decl μ) : Option (World μ) :=
  match mroOf w w.length d.bases with
  | none => none
  | some mro =>
    if isTypeClass w d then
      let inherited := inheritMessages w [] d.bases.reverse
      let messages := match d.messages with
        | some m => inherited.update m
        | none => inherited
      let validators := d.own.foldl (fun acc kv => acc.set kv.1 ()) (inheritValidators w [] d.bases.reverse)
      some (w ++ [{ bases := d.bases, isType := true, own := d.own, ownMessages := d.messages, mro, messages := some messages, validators := some validators }])
    else
      some (w ++ [{ bases := d.bases, isType := false, own := d.own, ownMessages := d.messages, mro, messages := d.messages, validators := none }])

/-- A sequence of class statements. -/
def defineAll (w : World μ) : List (Decl μ) → Option (World μ)
  | [] => some w
  | d :: r =>
    match define w d with
    | some w' => defineAll w' r
    | none => none

/-! ## Instances -/

/-- A `validate_…` attribute of a class: prepared for three arguments in a type class (`types/base.py:113-115`), as written in a plain class. -/
def method (name : String) (c : Cls μ) : Option Ready :=
  (c.own.get? name).map fun f => if c.isType then prepare (.user f) 3 else .user f

/-- The names of the type-level validators of the instances of class `i` (`self._validators`, `types/base.py:198`). -/
def validatorNames (w : World μ) (i : Nat) : List String := ((classAttr w Cls.validators i).getD []).keys

/-- `self.validators` (`types/base.py:198-200`): the methods, then the functions given to the constructor. -/
def instanceValidators (w : World μ) (i : Nat) (given : List Func) : List (Option Ready) :=
  (validatorNames w i).map (fun n => classAttr w (method n) i) ++ given.map fun f => some (prepare (.user f) 2)

/-- `self.messages` (`types/base.py:204`). -/
def instanceMessages (w : World μ) (i : Nat) (given : Dict String μ) : Dict String μ :=
  ((classAttr w Cls.messages i).getD []).update given

end Verif.Lib.TypeClass
