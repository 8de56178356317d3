import Verif.Samples
import Verif.Core.Sim

/-! # C06: `partial=True`, and fuel monotonicity (C22) -/
namespace Verif

/-! ## Specification vocabulary -/

/-- The field without its own `required` flag; element types inside are unchanged. -/
def Field.optional : Field → Field
  | .mk t o => .mk t { o with required := false }

/-- The class with all its fields optional. -/
def ClassDef.optional (c : ClassDef) : ClassDef :=
  { c with fields := c.fields.map fun fd => { fd with field := fd.field.optional } }

/-- The class table with the fields of all classes optional. -/
def Env.optional (env : Env) : Env :=
  { env with cls := fun k => (env.cls k).map ClassDef.optional }

/-! ## Lemmas -/

/-- Changing fields by `tf` and the `partial` flag to `p`. -/
def simOf (tf : Field → Field) (p : Bool) (h : ∀ f, (tf f).ty = f.ty ∧ (tf f).o.serializedName = f.o.serializedName ∧
    (tf f).o.default = f.o.default ∧ (tf f).o.deserializeFrom = f.o.deserializeFrom) : Sim where
  tf := tf
  tc := fun ctx => { ctx with partial_ := p }
  ser := fun f => (h f).2.1
  dflt := fun f => (h f).2.2.1
  dfrom := fun f => (h f).2.2.2
  comp := fun f => by rw [(h f).1]
  sub := fun _ _ _ => rfl
  trusted := fun _ => rfl
  mapping := fun _ => rfl
  strict := fun _ => rfl
  init := fun _ => rfl
  defaults := fun _ => rfl
  convert := fun _ => rfl
  validate := fun _ => rfl
  oo := fun _ => rfl
  recursive := fun _ => rfl
  app := fun _ => rfl
  conv := fun _ => rfl

/-- Dropping `required` as a simulation. -/
def dropReq : Sim := simOf Field.optional false (fun f => by cases f; exact ⟨rfl, rfl, rfl, rfl⟩)
/-- Setting the partial flag as a simulation. -/
def setPartial : Sim := simOf id true (fun f => ⟨rfl, rfl, rfl, rfl⟩)

theorem setPartial_cls (c : ClassDef) : setPartial.cls c = c := by
  unfold Sim.cls
  have : setPartial.fd = id := rfl
  rw [this, List.map_id]

theorem setPartial_env (e : Env) : setPartial.env e = e := by
  unfold Sim.env
  have : setPartial.cls = id := funext setPartial_cls
  rw [this]
  simp

theorem dropReq_env (e : Env) : dropReq.env e = e.optional := rfl

/-- The recursive call with the context forced to be partial. -/
def forcePartial (r : Rec) : Rec := fun ctx => r { ctx with partial_ := true }

theorem le_false {α : Type} {r r' : R α} (h : Le false r r') : r' = r := by
  rcases h with ⟨h, _⟩ | h
  · cases h
  · exact h

theorem forcePartial_agree (r : Rec) (fds : List FieldDef) : setPartial.Agree false (forcePartial r) r fds :=
  fun _ _ _ _ => Or.inr rfl

theorem fieldConv_dropReq (env : Env) (n : Nat) : ∀ (ctx : Ctx) (named : Bool) (f : Field) (v : Val),
    fieldConv env.optional n { ctx with partial_ := false } named (if named then f.optional else f) v
      = forcePartial (fieldConv env n) ctx named f v := by
  induction n with
  | zero => intros; rfl
  | succ n ih =>
    intro ctx named f v
    have h1 := le_false (setPartial.fieldConvF (rec := forcePartial (fieldConv env n)) (rec' := fieldConv env n)
      (e := env) (f := f) (f' := f) rfl rfl rfl (fun _ _ _ => forcePartial_agree _ _) (fun _ _ _ => Or.inr rfl)
      { ctx with partial_ := true } named v rfl)
    rw [setPartial_env] at h1
    have h2 := le_false (dropReq.fieldConvF (b := false) (rec := forcePartial (fieldConv env n))
      (rec' := fieldConv env.optional n)
      (e := env) (f := f) (f' := if named then f.optional else f)
      (by cases f; cases named <;> rfl) (by cases f; cases named <;> rfl) (by cases f; cases named <;> rfl)
      (fun k c _ ctx f hf v => Or.inr (ih ctx true f.field v)) (fun ctx f v => Or.inr (ih ctx false f v))
      { ctx with partial_ := true } named v
      (by cases f; cases named <;> simp [requiredFails, dropReq, simOf, Field.optional]))
    show fieldConvF (fieldConv env.optional n) env.optional _ named _ v =
      fieldConvF (fieldConv env n) env { ctx with partial_ := true } named f v
    exact h2.trans h1.symm

/-! ## Theorem -/

/-- **C06.** An import or validation with `partial=True` has exactly the outcome (result, errors,
crash) of the non-partial one on the schema in which `required` is removed from all named
fields, at every nesting depth; `required` on list and dict element types still counts. -/
theorem C06_partial_is_optional (env : Env) (n : Nat) (ctx : Ctx) (hp : ctx.partial_ = true) (c : ClassDef)
    (mu : Mut) (raw : Data) :
    runImport env n ctx c mu raw =
      runImport env.optional n { ctx with partial_ := false } c.optional mu raw ∧
    runValidate env n ctx c mu raw =
      runValidate env.optional n { ctx with partial_ := false } c.optional mu raw := by
  have h1 : setPartial.Agree false (forcePartial (fieldConv env n)) (fieldConv env n) c.fields := forcePartial_agree _ _
  have h2 : dropReq.Agree false (forcePartial (fieldConv env n)) (fieldConv env.optional n) c.fields :=
    fun ctx f _ v => Or.inr (fieldConv_dropReq env n ctx true f.field v)
  have hc : setPartial.tc ctx = ctx := by
    show { ctx with partial_ := true } = ctx
    rw [← hp]
  constructor
  · have a := le_false (setPartial.importLoop (e := env) h1 ctx mu raw)
    have b := le_false (dropReq.importLoop (e := env) h2 ctx mu raw)
    rw [setPartial_env, setPartial_cls, hc] at a
    exact a.trans b.symm
  · have a := le_false (setPartial.validateFn (e := env) h1 ctx mu raw)
    have b := le_false (dropReq.validateFn (e := env) h2 ctx mu raw)
    rw [setPartial_env, setPartial_cls, hc] at a
    exact a.trans b.symm

/-! ## The hypotheses are met -/

/-- The required `id` may be missing. -/
example : runImport Samples.env 5 { Samples.ictx with partial_ := true } Samples.order (.inst []) [] =
    runImport Samples.env.optional 5 Samples.ictx Samples.order.optional (.inst []) [] :=
  (C06_partial_is_optional Samples.env 5 { Samples.ictx with partial_ := true } rfl Samples.order (.inst []) []).1
example : Succeeded (runImport Samples.env 5 { Samples.ictx with partial_ := true } Samples.order (.inst []) []) ∧
    Failed (runImport Samples.env 5 Samples.ictx Samples.order (.inst []) []) := ⟨⟨_, rfl⟩, ⟨_, _, rfl⟩⟩

end Verif
