import Verif.Props.Import3
import Verif.Samples

/-!
# C75: deserialize mappings of nested models
-/
namespace Verif

/-- The mapping that is meant for the nested model in the given field: its entry under `'model_mapping'`,
or none at all. -/
def Mapping.meantFor (m : Mapping) (field : String) : Mapping :=
  ((m.sub.getD []).lookup field).getD .empty

/-- The outer mapping either has no nested mappings at all, or has one for the field. -/
def Mapping.Covers (m : Mapping) (field : String) : Prop :=
  m.sub.getD [] = [] ∨ (m.sub.getD []).lookup field ≠ none

/-! ## Lemmas -/

theorem lookup_get? {α : Type} (l : List (String × α)) (k : String) : l.lookup k = Dict.get? l k := by
  induction l with
  | nil => rfl
  | cons a l ih =>
    obtain ⟨x, y⟩ := a
    rw [List.lookup_cons, Dict.get?_cons, ih]
    by_cases h : x = k
    · simp [h]
    · have : (k == x) = false := by simpa using fun h' => h h'.symm
      simp [h, this]

theorem subCtx_mapping {env : Env} {ctx : Ctx} {name : String} (h : ctx.mapping.Covers name) :
    (subCtx env ctx name).mapping = ctx.mapping.meantFor name := by
  unfold Mapping.Covers at h
  unfold Mapping.meantFor subCtx
  rw [lookup_get?] at h ⊢
  cases hs : ctx.mapping.sub with
  | none => simp
  | some l =>
    cases l with
    | nil => simp
    | cons e es =>
      rw [hs] at h
      simp only [Option.getD_some] at h ⊢
      cases hg : Dict.get? (e :: es) name with
      | none => rw [hg] at h; rcases h with h | h <;> simp at h
      | some m => simp

/-- The outcome of the only field. -/
def singleOutcome (r : R Val) (trusted : Data) (repl : Exc → Option Val) (fd : FieldDef) : R Data :=
  match (match r with
    | .ok w => if w.isUndef then .ok .skip else .ok (.store w)
    | .error e => if e.caught then .ok (.fail e.tree (repl e)) else .error e : R Outcome) with
  | .error e => .error e
  | .ok o =>
    let a : Acc := (Acc.mk trusted []).apply fd o
    if a.errs.isEmpty then .ok a.data else .error (.data a.errs a.data)

theorem import_single (env : Env) (n : Nat) (ctx : Ctx) (hv : ctx.validate = false) (c : ClassDef) (mu : Mut)
    (fd : FieldDef) (hp : fd.fset = none) (hcomp : fd.field.ty.isCompound = true) (v : Val) (hu : v.isUndef = false) :
    runImport env n ctx (only c fd) mu [(.str fd.name, v)] =
      singleOutcome (fieldConv env n (subCtx env ctx fd.name) true fd.field v) ctx.trusted (failRepl ctx fd) fd := by
  have hin : inputValue [(.str fd.name, v)] ctx.mapping fd = v := by
    have : rawValue [(.str fd.name, v)] fd.name = v := by simp [rawValue, Dict.get?]
    simp [inputValue, this, hu]
  have hfill : fillValue ctx fd v = v := by simp [fillValue, hu]
  have hrogue : rogueKeys ctx (only c fd) [(.str fd.name, v)] = [] := by
    unfold rogueKeys
    split
    · have : fd.name ∈ acceptedKeys ctx.mapping (only c fd) := by
        unfold acceptedKeys only
        exact List.mem_append_left _ (List.mem_flatMap.2 ⟨fd, by simp, by simp [inputKeys]⟩)
      simp only [Dict.keys_cons, Dict.keys_nil, List.filter_eq_nil_iff, List.mem_singleton]
      rintro k rfl
      simpa using this
    · rfl
  have hloop : (only c fd).loopFields ctx = [fd] := by
    simp [ClassDef.loopFields, hv, ClassDef.plain, only, hp]
  have hcopy : ∀ d, copySettable (only c fd) ctx [(.str fd.name, v)] d = d := by
    intro d
    simp [copySettable, hv, ClassDef.settable, only, hp]
  unfold runImport importLoop importBody singleOutcome
  simp only [hv, Bool.false_eq_true, if_false, hrogue, hloop, hcopy, importFields, fieldOutcome, hin, hcomp, if_true, hfill, hu,
    Bool.false_and, List.foldl_nil]
  cases fieldConv env n (subCtx env ctx fd.name) true fd.field v with
  | ok w => cases hw : w.isUndef <;> simp only [hw, if_true, if_false, Bool.false_eq_true]
  | error e => cases he : e.caught <;> simp only [he, if_true, if_false, Bool.false_eq_true]

/-! ## The property -/

/-- C75.  The import of a nested (compound) field from its own key depends only on the mapping meant for this
field: two mappings of the outer model that agree on it give the same result - whatever else they contain, in particular
whatever names they map for the outer model - if each of them has no `'model_mapping'` or has an entry for this field in it.
Without that condition mappings leak: see `C75_counterexample_leak`. -/
theorem C75_nested_mapping (env : Env) (n : Nat) (ctx : Ctx) (hv : ctx.validate = false) (c : ClassDef) (mu : Mut)
    (fd : FieldDef) (hp : fd.fset = none) (hcomp : fd.field.ty.isCompound = true) (v : Val) (hdef : v ≠ .undef) (m1 m2 : Mapping)
    (h1 : m1.Covers fd.name) (h2 : m2.Covers fd.name) (hsame : m1.meantFor fd.name = m2.meantFor fd.name) :
    runImport env n { ctx with mapping := m1 } (only c fd) mu [(.str fd.name, v)] =
      runImport env n { ctx with mapping := m2 } (only c fd) mu [(.str fd.name, v)] := by
  have hu : v.isUndef = false := by
    cases h : v.isUndef with
    | false => rfl
    | true => exact absurd ((Val.isUndef_iff v).1 h) hdef
  have hsub : subCtx env { ctx with mapping := m1 } fd.name = subCtx env { ctx with mapping := m2 } fd.name := by
    have e1 := subCtx_mapping (env := env) (ctx := { ctx with mapping := m1 }) h1
    have e2 := subCtx_mapping (env := env) (ctx := { ctx with mapping := m2 }) h2
    simp only [] at e1 e2
    rw [hsame, ← e2] at e1
    unfold subCtx at e1 ⊢
    simp only [] at e1 ⊢
    rw [e1]
  have key := fun ctx' (h : ctx'.validate = false) => import_single env n ctx' h c mu fd hp hcomp v hu
  rw [key { ctx with mapping := m1 } hv, key { ctx with mapping := m2 } hv, hsub]
  rfl

/-- C75: the mapping of the outer model is not applied to a nested model: without `'model_mapping'` the nested model is imported
as if no mapping had been given at all. -/
theorem C75_outer_mapping_not_applied (env : Env) (n : Nat) (ctx : Ctx) (hv : ctx.validate = false) (c : ClassDef) (mu : Mut)
    (fd : FieldDef) (hp : fd.fset = none) (hcomp : fd.field.ty.isCompound = true) (v : Val) (hdef : v ≠ .undef)
    (entries : List (String × List String)) :
    runImport env n { ctx with mapping := .mk entries none } (only c fd) mu [(.str fd.name, v)] =
      runImport env n { ctx with mapping := .empty } (only c fd) mu [(.str fd.name, v)] :=
  C75_nested_mapping env n ctx hv c mu fd hp hcomp v hdef _ _ (Or.inl rfl) (Or.inl rfl) rfl

/-- C75 fails when some *other* field has a nested mapping: the outer name `x` for `id` is then also accepted by the nested
`parent`, which has no mapping. -/
theorem C75_counterexample_leak :
    (Mapping.mk [("id", ["x"])] (some [("items", .empty)])).meantFor "parent" = .empty ∧
    dataOf (runImport Samples.env 4 { Samples.ictx with mapping := .mk [("id", ["x"])] (some [("items", .empty)]) } Samples.order (.inst [])
        [(.str "id", .int 1), (.str "parent", .dict [(.str "x", .int 5)])])
      = [(.str "id", .int 1), (.str "items", .none), (.str "prices", .none), (.str "note", .str "-"),
         (.str "parent", .inst "Order" [(.str "id", .int 5), (.str "items", .none), (.str "prices", .none),
           (.str "note", .str "-"), (.str "parent", .none)])] := ⟨rfl, rfl⟩

/-! ## The hypotheses are met -/

/-- The `parent` field of `Samples.order`. -/
def Samples.parentField : FieldDef := { name := "parent", field := .mk (.model "Order") {} }

example : runImport Samples.env 4 { Samples.ictx with mapping := .mk [("id", ["x"])] none } (only Samples.order Samples.parentField) (.inst [])
      [(.str "parent", .dict [(.str "x", .int 5)])] =
    runImport Samples.env 4 { Samples.ictx with mapping := .empty } (only Samples.order Samples.parentField) (.inst [])
      [(.str "parent", .dict [(.str "x", .int 5)])] :=
  C75_outer_mapping_not_applied Samples.env 4 Samples.ictx rfl Samples.order (.inst []) Samples.parentField rfl rfl _ (by simp) _

/-- A nested mapping is applied to its field. -/
example : runImport Samples.env 4 { Samples.ictx with mapping := .mk [] (some [("parent", .mk [("id", ["x"])] none)]) }
      (only Samples.order Samples.parentField) (.inst []) [(.str "parent", .dict [(.str "x", .int 5)])]
    = .ok [(.str "parent", .inst "Order" [(.str "id", .int 5), (.str "items", .none), (.str "prices", .none),
           (.str "note", .str "-"), (.str "parent", .none)])] := rfl

end Verif
