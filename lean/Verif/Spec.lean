import Verif.Core.Import

/-!
# Specification vocabulary

Small definitions used in the *statements* of the property theorems, written
independently of the loops of the model.
-/
namespace Verif

/-- Two lists have the same length and are related element by element. -/
inductive All2 {α β : Type} (P : α → β → Prop) : List α → List β → Prop
  | nil : All2 P [] []
  | cons {a b as bs} : P a b → All2 P as bs → All2 P (a :: as) (b :: bs)

/-- The error dict reported by a finished import. -/
def errorsOf : R Data → Errs
  | .error (.data es _) => es
  | _ => []

/-- The data a finished import produced: the result, or `partial_data`. -/
def dataOf : R Data → Data
  | .ok d => d
  | .error (.data _ p) => p
  | _ => []

/-- The import ended with an exception that is not a `DataError`. -/
def Crashed (r : R Data) : Prop := ∃ e, r = .error e ∧ ∀ es p, e ≠ .data es p

/-- The import raised `DataError`. -/
def Failed (r : R Data) : Prop := ∃ es p, r = .error (.data es p)

/-- The import returned normally. -/
def Succeeded (r : R Data) : Prop := ∃ d, r = .ok d

/-- The schema with a single field of `c`. -/
def only (c : ClassDef) (fd : FieldDef) : ClassDef := { c with fields := [fd] }

/-- The input names of a field: own name, serialized name, mapped names,
`deserialize_from` aliases, in order of precedence. -/
def ownNames (m : Mapping) (fd : FieldDef) : List String :=
  fd.name ::
    ((fd.field.o.serializedName.toList.filter (· ≠ ""))
      ++ (Dict.get? m.entries fd.name).getD [] ++ fd.field.o.deserializeFrom)

/-- The part of the input under the given names. -/
def restrict (raw : Data) (names : List String) : Data :=
  raw.filter fun kv => (names.map Key.str).contains kv.1

/-- Importing one field alone, from that part of the input that belongs to it. -/
def solo (env : Env) (n : Nat) (ctx : Ctx) (c : ClassDef) (mu : Mut) (raw : Data) (fd : FieldDef) :
    R Data :=
  runImport env n ctx (only c fd) mu (restrict raw (ownNames ctx.mapping fd))

/-- A key the schema accepts as input: the name, serialized name or a
`deserialize_from` alias of some field, or a name given in the mapping. -/
def Accepted (m : Mapping) (c : ClassDef) (k : Key) : Prop :=
  ∃ s, k = .str s ∧
    ((∃ fd ∈ c.fields, s = fd.name ∨ (fd.field.o.serializedName = some s ∧ s ≠ "")
        ∨ s ∈ fd.field.o.deserializeFrom)
      ∨ ∃ e ∈ m.entries, s ∈ e.2)

/-- A key of the input that strict mode must reject. -/
def Rogue (ctx : Ctx) (c : ClassDef) (raw : Data) (k : Key) : Prop :=
  ctx.strict = true ∧ k ∈ raw.keys ∧ ¬ Accepted ctx.mapping c k

/-- No two fields share an external name. -/
def DistinctExt (c : ClassDef) : Prop := (c.fields.map (·.extName)).Nodup

end Verif
