import Verif.Py.Val
import Mathlib.Data.List.Sort

/-!
# Defining model classes: `ModelMeta` (`models.py:70-145`), `Schema` and `SchemaOptions` (`schema.py`)

Type objects (the instances of `StringType`, `ListType`, …) live in a heap, because a class definition mutates them (`_setup`) and because
inheritance copies them only shallowly.

Simplifications: an object that is the value of two attributes of one class is copied once per attribute by a subclass (`deepcopy`'s memo would
preserve the sharing); the chain of element types below a list or dict type is fixed at construction and therefore stored as a list; custom
`__optionsclass__` and the resolution of other names by import (`util.py:138-174`) are not modelled.
-/
namespace Verif.Lib.Meta

/-- A type object (`types/base.py:174-215`): `spec` stands for everything given to the constructor that no class definition changes. -/
structure TypeObj (τ : Type) where
  spec : τ
  /-- `_position_hint` -/
  hint : Nat
  /-- `export_level` of the type object itself -/
  level : Option Nat := none
  /-- the objects reached by following `.field`, outermost first (`types/compound.py:190`, `289`) -/
  inners : List Nat := []
  /-- `name` -/
  name : Option String := none
  /-- `owner_model` -/
  owner : Option Nat := none
  /-- `model_name`, for a `ModelType` whose model was given as a text (`types/compound.py:116-118`) -/
  ref : Option String := none
  /-- `_model_class` of such a type, once it is known -/
  target : Option Nat := none


/-- A field of a schema: a type object, or a `Serializable` (`types/serializable.py:66-75`) with its functions and type object. -/
structure FieldRef (σ : Type) where
  obj : Nat
  fget : Option σ := none


/-- `SchemaOptions` (`schema.py:35-52`). -/
structure Options (ρ : Type) where
  namespaceName : Option String := none
  roles : Dict String ρ := []
  exportLevel : Nat := 10
  exportOrder : Bool := false
  extras : Dict String Val := []


/-- The members of an `Options` class in a class body (`models.py:125-145`); absent members are `none`. -/
structure OptionsDecl (ρ : Type) where
  namespaceName : Option (Option String) := none
  roles : Option (Dict String ρ) := none
  exportLevel : Option Nat := none
  serializeWhenNone : Option (Option Bool) := none
  exportOrder : Option Bool := none
  /-- members that start with one underscore -/
  extras : Dict String Val := []

/-- A model class: its `_schema`. -/
structure Class (σ ρ ν : Type) where
  name : String
  fields : Dict String (FieldRef σ) := []
  options : Options ρ := {}
  validators : Dict String ν := []


/-- All type objects and classes that exist. -/
structure World (τ σ ρ ν : Type) where
  objs : List (TypeObj τ) := []
  classes : List (Class σ ρ ν) := []

/-- The body of a class statement: the attributes that are types or serializables, the `validate_…` functions, and `Options`. -/
structure Body (σ ρ ν : Type) where
  fields : Dict String (FieldRef σ) := []
  validators : Dict String ν := []
  options : Option (OptionsDecl ρ) := none

variable {τ σ ρ ν : Type}

/-- `deepcopy(base._schema.fields)` (`models.py:89`): every type object is copied shallowly (`types/base.py:229-230`,
`types/serializable.py:103-104`); the element types are shared. -/
def copyFields (objs : List (TypeObj τ)) : Dict String (FieldRef σ) → List (TypeObj τ) × Dict String (FieldRef σ)
  | [] => (objs, [])
  | (k, f) :: r =>
    match objs[f.obj]? with
    | some o =>
      let p := copyFields (objs ++ [o]) r
      (p.1, (k, { f with obj := objs.length }) :: p.2)
    | none =>
      let p := copyFields objs r
      (p.1, (k, f) :: p.2)

/-- The fields accumulated from the base classes (`models.py:86-89`); `bases` is already reversed. -/
def inheritFields (cls : List (Class σ ρ ν)) (objs : List (TypeObj τ)) (acc : Dict String (FieldRef σ)) :
    List Nat → List (TypeObj τ) × Dict String (FieldRef σ)
  | [] => (objs, acc)
  | b :: r =>
    match cls[b]? with
    | some c =>
      let p := copyFields objs c.fields
      inheritFields cls p.1 (acc.update p.2) r
    | none => inheritFields cls objs acc r

/-- The options accumulated from the base classes (`models.py:90`): every base defines all members. -/
def inheritOptions (cls : List (Class σ ρ ν)) (acc : Options ρ) : List Nat → Options ρ
  | [] => acc
  | b :: r =>
    match cls[b]? with
    | some c => inheritOptions cls c.options r
    | none => inheritOptions cls acc r

/-- The model-level validators accumulated from the base classes (`models.py:91`). -/
def inheritValidators (cls : List (Class σ ρ ν)) (acc : Dict String ν) : List Nat → Dict String ν
  | [] => acc
  | b :: r =>
    match cls[b]? with
    | some c => inheritValidators cls (acc.update c.validators) r
    | none => inheritValidators cls acc r

/-- `_read_options` followed by `SchemaOptions.__init__` (`models.py:125-145`, `schema.py:37-52`). -/
def readOptions (inherited : Options ρ) : Option (OptionsDecl ρ) → Options ρ
  | none => inherited
  | some d =>
    { namespaceName := d.namespaceName.getD inherited.namespaceName
      roles := match d.roles with
        | some r => inherited.roles.update r
        | none => inherited.roles
      exportLevel := match d.serializeWhenNone with
        | some (some true) => 10
        | some (some false) => 1
        | _ => d.exportLevel.getD inherited.exportLevel
      exportOrder := d.exportOrder.getD inherited.exportOrder
      extras := inherited.extras.update d.extras }

/-- The sort key of a field (`models.py:103-106`). -/
def hintOf (objs : List (TypeObj τ)) (f : FieldRef σ) : Nat :=
  match objs[f.obj]? with
  | some o => o.hint
  | none => 0

/-- `BaseType._setup` and `ModelType._setup` (`types/base.py:235-241`, `types/compound.py:131-138`): the object is given a name and an owner, and a model
given as a text is resolved to the owner, whose name is `ownerName`, if it has that name and the object is not resolved yet. -/
def TypeObj.setUp (o : TypeObj τ) (name : Option String) (owner : Nat) (ownerName : String) : TypeObj τ :=
  { o with
    name := name
    owner := some owner
    target := if o.target.isNone && o.ref == some ownerName then some owner else o.target }

/-- One object is set up. -/
def setupObj (name : Option String) (owner : Nat) (ownerName : String) (objs : List (TypeObj τ)) (i : Nat) : List (TypeObj τ) :=
  objs.modify i fun o => o.setUp name owner ownerName

/-- `field.type._setup(name, model)` (`types/compound.py:43-47`, `types/base.py:235-241`): element types first. -/
def setup (objs : List (TypeObj τ)) (name : String) (owner : Nat) (ownerName : String) (i : Nat) : List (TypeObj τ) :=
  let inners := match objs[i]? with
    | some o => o.inners
    | none => []
  setupObj (some name) owner ownerName (inners.foldl (setupObj none owner ownerName) objs) i

/-- `Schema.append_field` for every field in order (`schema.py:20-30`). -/
def setupAll (owner : Nat) (ownerName : String) : List (TypeObj τ) → Dict String (FieldRef σ) → List (TypeObj τ)
  | objs, [] => objs
  | objs, (k, f) :: r => setupAll owner ownerName (setup objs k owner ownerName f.obj) r

/-- The field table of a new class and the heap after copying (`models.py:84-106`). -/
def collect (w : World τ σ ρ ν) (bases : List Nat) (body : Body σ ρ ν) : List (TypeObj τ) × Dict String (FieldRef σ) :=
  let p := inheritFields w.classes w.objs [] bases.reverse
  let fields := p.2.update body.fields
  (p.1, List.insertionSort (fun a b => hintOf p.1 a.2 ≤ hintOf p.1 b.2) fields)

/-- `ModelMeta.__new__` (`models.py:75-123`). -/
def define (w : World τ σ ρ ν) (name : String) (bases : List Nat) (body : Body σ ρ ν) : World τ σ ρ ν :=
  let p := collect w bases body
  { objs := setupAll w.classes.length name p.1 p.2
    classes := w.classes ++ [
      { name
        fields := p.2
        options := readOptions (inheritOptions w.classes {} bases.reverse) body.options
        validators := (inheritValidators w.classes [] bases.reverse).update body.validators }] }

/-- The name of a class. -/
def className (w : World τ σ ρ ν) (c : Nat) : String :=
  match w.classes[c]? with
  | some cl => cl.name
  | none => ""

/-- `Model._append_field` (`models.py:346-358`): `Schema.append_field` (`schema.py:28-30`) stores the field under its name in the field table of the class and
sets the type object up. -/
def appendField (w : World τ σ ρ ν) (c : Nat) (name : String) (f : FieldRef σ) : World τ σ ρ ν :=
  { objs := setup w.objs name c (className w c) f.obj
    classes := w.classes.modify c fun cl => { cl with fields := cl.fields.set name f } }

/-- The input keys of a field (`types/base.py:264-279`, without a call-time mapping), read from its type object: the name the object was last set up with (`None`
before that), then the keys given to the constructor (`serialized_name`, `deserialize_from`), which `given` reads from it. -/
def inputKeys (given : τ → List String) (objs : List (TypeObj τ)) (f : FieldRef σ) : List (Option String) :=
  match objs[f.obj]? with
  | some o => o.name :: (given o.spec).map some
  | none => []

/-- `_set_export_level` (`types/base.py:243-251`): the level of a type object from the arguments `export_level` and `serialize_when_none` of its
constructor. -/
def setLevel : Option Nat → Option Bool → Option Nat
  | some l, _ => some l
  | none, some true => some 10
  | none, some false => some 1
  | none, none => none

/-- `get_export_level` (`types/base.py:253-262`) of the object `i`, with the context's level. -/
def exportLevel (w : World τ σ ρ ν) (i : Nat) (ctx : Option Nat) : Option Nat :=
  match w.objs[i]? with
  | none => none
  | some o =>
    let own := match o.owner with
      | some c => match w.classes[c]? with
        | some c => c.options.exportLevel
        | none => 10
      | none => 10
    some (ctx.getD (o.level.getD own))

/-- The items of an exported list (`types/compound.py:251-269`) whose exported values are `shaped`, for an element type that is not compound:
`none` stands for `None`. -/
def exportItems (w : World τ σ ρ ν) (list : Nat) (ctx : Option Nat) (shaped : List (Option String)) : List (Option String) :=
  match w.objs[list]? with
  | some o => match o.inners with
    | [] => shaped
    | i :: _ => match exportLevel w i ctx with
      | some l => if l = 0 then [] else shaped.filter fun v => v.isSome || !decide (l ≤ 2)
      | none => shaped
  | none => shaped

end Verif.Lib.Meta
