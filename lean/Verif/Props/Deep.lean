import Verif.Samples
import Verif.Core.Deep

/-! # Properties that hold at every nesting depth (C04, C05, C08, C17, C19) -/
namespace Verif

/-! ## helper lemmas -/

theorem fieldConv_leaf_trusted (env : Env) (n : Nat) (ctx : Ctx) (t : Data) (b : Bool) (f : Field)
    (hf : f.ty.isCompound = false) (v : Val) :
    fieldConv env n { ctx with trusted := t } b f v = fieldConv env n ctx b f v := by
  obtain ⟨ty, o⟩ := f
  cases n with
  | zero => rfl
  | succ n =>
    cases ty with
    | leaf l => rfl
    | _ => cases hf

theorem fieldConvF_empty {rec : Rec} {env : Env} {ctx : Ctx} {b : Bool} {f : Field} {v w : Val}
    (hv : v.isEmpty = true) (h : fieldConvF rec env ctx b f v = .ok w) : w = v := by
  unfold fieldConvF at h
  rw [hv] at h
  simp only [if_true] at h
  by_cases hr : requiredFails ctx b f v = true
  · rw [if_pos hr] at h; cases h
  · rw [if_neg hr] at h; cases h; rfl

theorem fillValue_defined (ctx : Ctx) (fd : FieldDef) (v : Val) (h : ctx.init = true) :
    (fillValue ctx fd v).isUndef = false := by
  unfold fillValue
  simp only [h, Bool.and_true]
  generalize (if (v.isUndef && ctx.defaults) = true then fd.field.o.default else v) = x
  cases hx : x.isUndef with
  | true => rfl
  | false => simpa using hx

/-- `everywhere_conv` for the fields of the outermost model. -/
theorem everywhere_body {env : Env} (hwf : env.WF) (hpure : env.Pure) {P : Leaf → Prop}
    (hleaves : env.AllLeaves P) {Q : Bool → Field → Val → Prop} {A : FieldDef → Prop} (ctx : Ctx)
    (ht : ctx.trusted = [] ∨ ctx.recursive = false) (hmode : ctx.conv = .imp ∨ ctx.convert = true)
    (hQ : ∀ n m b f v w, Field.AllLeaves P f →
      fieldConv env n { ctx with trusted := [], mapping := m } b f v = .ok w → Q b f w)
    (hA : ∀ n m fd v w, Field.AllLeaves P fd.field → w.isUndef = true →
      fieldConv env n { ctx with trusted := [], mapping := m } true fd.field v = .ok w → A fd)
    {n : Nat} {c : ClassDef} (hc : c.WF) (hcl : ∀ fd ∈ c.fields, fd.field.AllLeaves P)
    {raw : Data} {errs : Errs} {d : Data}
    (h : importBody (fieldConv env n) env ctx c raw errs = .ok d)
    {fd : FieldDef} (hfd : fd ∈ c.fields) (hp : fd.fset = none)
    (hnt : Key.str fd.name ∉ ctx.trusted.keys) :
    (Dict.get? d (.str fd.name) = none → A fd) ∧
    (∀ w, Dict.get? d (.str fd.name) = some w →
      Everywhere env Q A (!ctx.validate) true fd.field w) := by
  have hnone : ctx.trusted.get? (.str fd.name) = none := (Dict.get?_eq_none _ _).2 hnt
  rcases importBody_fields hc h hfd hp with ⟨_, h2, _⟩ | ⟨w', h1, h2⟩
  · exact absurd ((Dict.has_iff _ _).1 h2) hnt
  · rw [hnone] at h2
    obtain ⟨m, hm⟩ : ∃ m, fieldConv env n { ctx with trusted := [], mapping := m } true fd.field
        (fillValue ctx fd (inputValue raw ctx.mapping fd)) = .ok w' := by
      split at h1
      · refine ⟨(subCtx env ctx fd.name).mapping, ?_⟩
        rw [← h1]
        congr 1
        unfold subCtx
        rcases ht with ht | ht <;> simp [ht]
      · rename_i hcomp
        refine ⟨ctx.mapping, ?_⟩
        rw [← h1]
        exact fieldConv_leaf_trusted env n ctx [] true fd.field (by simpa using hcomp) _
    constructor
    · intro hn
      rw [hn] at h2
      split at h2
      · rename_i hu; exact hA _ _ fd _ _ (hcl fd hfd) hu hm
      · cases h2
    · intro w hw
      rw [hw] at h2
      split at h2
      · cases h2
      · injection h2 with h2; subst h2
        exact everywhere_conv hwf hpure hleaves { ctx with trusted := [] } rfl hmode hQ hA _ _ _ _ _ _
          (hcl fd hfd) hm

/-- The successful run under consideration: an import, or a model validation whose
model-level validators only check. -/
def SuccessfulRun (env : Env) (n : Nat) (ctx : Ctx) (c : ClassDef) (mu : Mut) (raw d : Data) : Prop :=
  runImport env n ctx c mu raw = .ok d ∨
    (PureValidators c ∧ runValidate env n ctx c mu raw = .ok d)

theorem successful_body {env : Env} {n : Nat} {ctx : Ctx} {c : ClassDef} {mu : Mut} {raw d : Data}
    (h : SuccessfulRun env n ctx c mu raw d) :
    ∃ raw' errs, importBody (fieldConv env n) env ctx c raw' errs = .ok d := by
  rcases h with h | ⟨hp, h⟩
  · exact importLoop_ok h
  · obtain ⟨m, d0, _, h2, h3⟩ := validateFn_ok h
    rw [validateModel_pure hp h3]
    exact ⟨_, _, h2⟩

/-! ## C05 (and C04 at depth) -/

/-- Scalar conversion never turns a value into nothing (true of all built-in types). -/
def LeafKeeps (l : Leaf) : Prop :=
  (∀ app v w, v.isEmpty = false → l.toNative app v = .ok w → w.isEmpty = false) ∧
  (∀ g, l.override = some g → ∀ b app v w, v.isEmpty = false → g b app v = .ok w → w.isEmpty = false)

/-- A required field must not be empty (and with `partial` this is only demanded
inside lists and dicts). -/
def RequiredOk (partial_ : Bool) (named : Bool) (f : Field) (v : Val) : Prop :=
  f.o.required = true → (named = false ∨ partial_ = false) → v.isEmpty = false

/-- A field may be missing only if it is not required (or with `partial`). -/
def MayMiss (partial_ : Bool) (fd : FieldDef) : Prop := fd.field.o.required = false ∨ partial_ = true

theorem convertF_nonempty {rec : Rec} {env : Env} (hpure : env.Pure) {ctx : Ctx} {f : Field} {v w : Val}
    (hl : f.AllLeaves LeafKeeps) (hv : v.isEmpty = false) (h : convertF rec env ctx f v = .ok w) :
    w.isEmpty = false := by
  obtain ⟨t, o⟩ := f
  cases t with
  | leaf l => exact (show LeafKeeps l from hl).1 _ _ _ hv h
  | list inner mn mx =>
    simp only [convertF, Field.ty_mk] at h
    split at h
    · cases h
    · obtain ⟨ys, rfl, _⟩ := listConv_ok h; rfl
  | dict inner co =>
    simp only [convertF, Field.ty_mk] at h
    split at h
    · obtain ⟨d, rfl, _⟩ := dictConv_ok h; rfl
    · cases h
  | model cls =>
    simp only [convertF, Field.ty_mk] at h
    obtain ⟨k, c, raw', errs, d, _, _, rfl | rfl⟩ := modelConv_ok hpure h <;> rfl
  | poly p =>
    simp only [convertF, Field.ty_mk] at h
    rcases polyConv_ok hpure h with ⟨_, _, rfl⟩ | ⟨k, c, raw', errs, d, _, _, rfl⟩
    · exact hv
    · rfl

theorem fieldConvF_nonempty {rec : Rec} {env : Env} (hpure : env.Pure) {ctx : Ctx} {b : Bool}
    {f : Field} {v w : Val} (hl : f.AllLeaves LeafKeeps) (hv : v.isEmpty = false)
    (h : fieldConvF rec env ctx b f v = .ok w) : w.isEmpty = false := by
  unfold fieldConvF at h
  split at h
  · cases h
  · rw [hv] at h
    simp only [Bool.false_eq_true, if_false] at h
    cases hcc : ctx.conv with
    | imp => rw [hcc] at h; exact convertF_nonempty hpure hl hv h
    | val =>
      rw [hcc] at h
      simp only [validateF] at h
      split at h
      · rename_i g hg
        obtain ⟨t, o⟩ := f
        cases t with
        | leaf l => exact (show LeafKeeps l from hl).2 g hg _ _ _ _ hv h
        | _ => cases hg
      · split at h
        · split at h
          · cases h
          · rename_i w' hw'
            rw [(finishValidation_ok h).1]
            exact convertF_nonempty hpure hl hv hw'
        · split at h
          · split at h
            · cases h
            · rw [(finishValidation_ok h).1]; exact hv
          · rw [(finishValidation_ok h).1]; exact hv

theorem fieldConv_required {env : Env} (hpure : env.Pure) {ctx : Ctx} {n : Nat} {b : Bool} {f : Field}
    {v w : Val} (hl : f.AllLeaves LeafKeeps) (h : fieldConv env n ctx b f v = .ok w) :
    RequiredOk ctx.partial_ b f w := by
  cases n with
  | zero => cases h
  | succ n =>
    intro hr hb
    cases hv : v.isEmpty with
    | false => exact fieldConvF_nonempty hpure hl hv h
    | true =>
      exfalso
      simp only [fieldConv, fieldConvF] at h
      have : requiredFails ctx b f v = true := by
        unfold requiredFails
        rcases hb with hb | hb <;> simp [hr, hv, hb]
      rw [if_pos this] at h
      cases h

/-- **C05.** If an import or a validation succeeds, for any schema (also recursive),
input, and option set: every required field of the result has a value that is
neither missing nor `None` - at the top level (unless trusted data supplied it), in
nested models, list items and dict values at every depth.  With `partial` the same
holds for the elements of lists and dicts.  Nested models contain declared keys
only (C04 at depth).  Ready-made instances in polymorphic fields are exempt when
not validating. -/
theorem C05_required_at_every_depth (env : Env) (n : Nat) (ctx : Ctx) (c : ClassDef) (mu : Mut)
    (raw d : Data) (hwf : env.WF) (hpure : env.Pure) (hlv : env.AllLeaves LeafKeeps) (hc : c.WF)
    (hcl : ∀ fd ∈ c.fields, fd.field.AllLeaves LeafKeeps)
    (ht : ctx.trusted = [] ∨ ctx.recursive = false) (hmode : ctx.conv = .imp ∨ ctx.convert = true)
    (hrun : SuccessfulRun env n ctx c mu raw d)
    (fd : FieldDef) (hfd : fd ∈ c.fields) (hp : fd.fset = none)
    (hnt : Key.str fd.name ∉ ctx.trusted.keys) :
    (Dict.get? d (.str fd.name) = none → MayMiss ctx.partial_ fd) ∧
    (∀ w, Dict.get? d (.str fd.name) = some w →
      Everywhere env (RequiredOk ctx.partial_) (MayMiss ctx.partial_) (!ctx.validate) true fd.field w) := by
  obtain ⟨raw', errs, hb⟩ := successful_body hrun
  refine everywhere_body hwf hpure hlv ctx ht hmode ?_ ?_ hc hcl hb hfd hp hnt
  · intro n m b f v w hl h
    exact fieldConv_required (ctx := { ctx with trusted := [], mapping := m }) hpure hl h
  · intro n m fd v w hl hu h
    have := fieldConv_required (ctx := { ctx with trusted := [], mapping := m }) hpure hl h
    unfold RequiredOk at this
    unfold MayMiss
    have he : w.isEmpty = true := by rw [(Val.isUndef_iff w).1 hu]; rfl
    cases hr : fd.field.o.required with
    | false => exact Or.inl rfl
    | true =>
      right
      cases hpp : ctx.partial_ with
      | true => rfl
      | false =>
        have := this hr (Or.inr hpp)
        rw [he] at this; cases this

/-- In particular, without `partial`: a required field of the model itself is never
missing or `None` in the result. -/
theorem C05_required_top (env : Env) (n : Nat) (ctx : Ctx) (c : ClassDef) (mu : Mut)
    (raw d : Data) (hwf : env.WF) (hpure : env.Pure) (hlv : env.AllLeaves LeafKeeps) (hc : c.WF)
    (hcl : ∀ fd ∈ c.fields, fd.field.AllLeaves LeafKeeps)
    (ht : ctx.trusted = [] ∨ ctx.recursive = false) (hmode : ctx.conv = .imp ∨ ctx.convert = true)
    (hpart : ctx.partial_ = false)
    (hrun : SuccessfulRun env n ctx c mu raw d)
    (fd : FieldDef) (hfd : fd ∈ c.fields) (hp : fd.fset = none) (hreq : fd.field.o.required = true)
    (hnt : Key.str fd.name ∉ ctx.trusted.keys) :
    ∃ w, Dict.get? d (.str fd.name) = some w ∧ w ≠ .none ∧ w ≠ .undef := by
  obtain ⟨raw', errs, hb⟩ := successful_body hrun
  have hnone : ctx.trusted.get? (.str fd.name) = none := (Dict.get?_eq_none _ _).2 hnt
  rcases importBody_fields hc hb hfd hp with ⟨_, h2, _⟩ | ⟨w', h1, h2⟩
  · exact absurd ((Dict.has_iff _ _).1 h2) hnt
  · rw [hnone] at h2
    have hq := fieldConv_required hpure (hcl fd hfd) h1 hreq (by
      right
      split
      · exact hpart
      · exact hpart)
    have hne : ¬ (w' = .none ∨ w' = .undef) := by
      rw [← Val.isEmpty_iff, hq]; simp
    refine ⟨w', ?_, fun h => hne (Or.inl h), fun h => hne (Or.inr h)⟩
    rw [h2, if_neg]
    rw [Val.isUndef_iff]
    exact fun h => hne (Or.inr h)

/-! ## C08 -/

/-- **C08.** After a successful import or validation with value initialisation on, every
field (without setter) of the schema has an entry in the data. -/
theorem C08_init_leaves_nothing_undefined (env : Env) (n : Nat) (ctx : Ctx) (c : ClassDef) (mu : Mut)
    (raw d : Data) (hpure : env.Pure) (hc : c.WF)
    (hcl : ∀ fd ∈ c.fields, fd.field.AllLeaves LeafKeeps) (hinit : ctx.init = true)
    (hrun : SuccessfulRun env n ctx c mu raw d)
    (fd : FieldDef) (hfd : fd ∈ c.fields) (hp : fd.fset = none) :
    ∃ w, Dict.get? d (.str fd.name) = some w := by
  obtain ⟨raw', errs, hb⟩ := successful_body hrun
  rcases importBody_fields hc hb hfd hp with ⟨h1, h2, _⟩ | ⟨w', h1, h2⟩
  · rw [h1]
    exact Option.isSome_iff_exists.1 h2
  · refine ⟨w', ?_⟩
    rw [h2, if_neg]
    intro hu
    rw [Val.isUndef_iff] at hu
    subst hu
    cases n with
    | zero => cases h1
    | succ n =>
      generalize hv : fillValue ctx fd (inputValue raw' ctx.mapping fd) = v at h1
      have hvu : v.isUndef = false := by
        rw [← hv]
        exact fillValue_defined ctx fd _ hinit
      cases hve : v.isEmpty with
      | false =>
        have := fieldConvF_nonempty hpure (hcl fd hfd) hve h1
        cases this
      | true =>
        have := fieldConvF_empty hve h1
        rw [← this] at hvu
        cases hvu

/-! ## C17 -/

/-- A value satisfies the constraints of its field: it is empty, or it passes every
validator; spelled out, it is one of the choices, and a list has an allowed length. -/
def Satisfies (app : Val) (_named : Bool) (f : Field) (v : Val) : Prop :=
  v.isEmpty = true ∨
    ((∀ g ∈ f.allValidators, g app v = .ok ()) ∧
     (∀ cs, f.o.choices = some cs → Val.pyIn v cs = true) ∧
     (∀ g ∈ f.o.validators, g app v = .ok ()) ∧
     (∀ inner mn mx, f.ty = .list inner mn mx → ∀ xs, v = .list xs →
        (∀ k, mn = some k → k ≤ xs.length) ∧ ∀ k, mx = some k → xs.length ≤ k))

/-- The type does not override `validate`. -/
def NoOverride (l : Leaf) : Prop := l.override = none

theorem runValidators_none {app v : Val} {gs : List Validator} (h : runValidators app v gs = .ok none) :
    ∀ g ∈ gs, g app v = .ok () := by
  induction gs with
  | nil => simp
  | cons g gs ih =>
    simp only [runValidators] at h
    split at h
    · rename_i hg
      intro g' hg'
      rcases List.mem_cons.1 hg' with rfl | hg'
      · exact hg
      · exact ih h g' hg'
    · split at h <;> cases h
    · cases h
    · cases h

theorem checkLength_ok {mn mx : Option Nat} {app v : Val} (h : checkLength mn mx app v = .ok ()) :
    (∀ k, mn = some k → k ≤ pyLen v) ∧ ∀ k, mx = some k → pyLen v ≤ k := by
  unfold checkLength at h
  cases h1 : tooShort mn (pyLen v) with
  | true => rw [h1] at h; cases h
  | false =>
    rw [h1] at h
    cases h2 : tooLong mx (pyLen v) with
    | true => rw [h2] at h; cases h
    | false =>
      constructor
      · rintro k rfl; simpa [tooShort] using h1
      · rintro k rfl; simpa [tooLong] using h2

theorem satisfies_of_all {app : Val} {b : Bool} {f : Field} {v : Val}
    (h : ∀ g ∈ f.allValidators, g app v = .ok ()) : Satisfies app b f v := by
  right
  refine ⟨h, ?_, ?_, ?_⟩
  · intro cs hcs
    have := h (checkChoices f.o.choices) (by simp [Field.allValidators])
    unfold checkChoices at this
    rw [hcs] at this
    simp only [] at this
    split at this
    · assumption
    · cases this
  · intro g hg
    exact h g (by simp [Field.allValidators, hg])
  · intro inner mn mx hty xs hv
    subst hv
    have := h (checkLength mn mx) (by simp [Field.allValidators, hty])
    obtain ⟨h1, h2⟩ := checkLength_ok this
    exact ⟨h1, h2⟩

theorem fieldConv_satisfies {env : Env} {ctx : Ctx} (hconv : ctx.conv = .val) {n : Nat} {b : Bool}
    {f : Field} {v w : Val} (hl : f.AllLeaves NoOverride) (h : fieldConv env n ctx b f v = .ok w) :
    Satisfies ctx.app b f w := by
  cases n with
  | zero => cases h
  | succ n =>
    simp only [fieldConv, fieldConvF] at h
    split at h
    · cases h
    · split at h
      · rename_i hv
        cases h
        exact Or.inl hv
      · rw [hconv] at h
        have hov : f.ty.override = none := by
          obtain ⟨t, o⟩ := f
          cases t with
          | leaf l => exact hl
          | _ => rfl
        simp only [validateF, hov] at h
        have fin : ∀ {x}, finishValidation ctx.app x f.allValidators = .ok w →
            Satisfies ctx.app b f w := by
          intro x hx
          obtain ⟨rfl, h2⟩ := finishValidation_ok hx
          exact satisfies_of_all (runValidators_none h2)
        split at h
        · split at h
          · cases h
          · exact fin h
        · split at h
          · split at h
            · cases h
            · exact fin h
          · exact fin h

/-- **C17.** If a model validation (with conversion) succeeds, then every value in the
result - fields, list items, dict values, fields of nested models, at any depth - is
`None`/undefined or passes every validator of its type: choices, range, length,
regular expression, list size and custom validators. -/
theorem C17_validated_everywhere (env : Env) (n : Nat) (ctx : Ctx) (c : ClassDef) (mu : Mut)
    (raw d : Data) (hwf : env.WF) (hpure : env.Pure) (hlv : env.AllLeaves NoOverride) (hc : c.WF)
    (hpc : PureValidators c) (hcl : ∀ fd ∈ c.fields, fd.field.AllLeaves NoOverride)
    (ht : ctx.trusted = [] ∨ ctx.recursive = false) (hconv : ctx.conv = .val)
    (hcv : ctx.convert = true) (hval : ctx.validate = true)
    (hrun : runValidate env n ctx c mu raw = .ok d)
    (fd : FieldDef) (hfd : fd ∈ c.fields) (hp : fd.fset = none)
    (hnt : Key.str fd.name ∉ ctx.trusted.keys) (w : Val) (hw : Dict.get? d (.str fd.name) = some w) :
    Everywhere env (Satisfies ctx.app) (fun _ => True) false true fd.field w := by
  obtain ⟨raw', errs, hb⟩ := successful_body (Or.inr ⟨hpc, hrun⟩)
  have := (everywhere_body (Q := Satisfies ctx.app) (A := fun _ => True) hwf hpure hlv ctx ht
    (Or.inr hcv) ?_ (fun _ _ _ _ _ _ _ _ => trivial) hc hcl hb hfd hp hnt).2 w hw
  · simpa [hval] using this
  · intro n m b f v w hl h
    exact fieldConv_satisfies (ctx := { ctx with trusted := [], mapping := m }) hconv hl h

/-! ## C19 -/

mutual
/-- No polymorphic type inside. -/
def FType.NoPoly : FType → Prop
  | .leaf _ => True
  | .list inner _ _ => inner.NoPoly
  | .dict inner _ => inner.NoPoly
  | .model _ => True
  | .poly _ => False
/-- No polymorphic type inside. -/
def Field.NoPoly : Field → Prop
  | .mk t _ => t.NoPoly
end

/-- Overridden validation returns what conversion returns (true of `UnionType` over
types without override, see C65). -/
def OverrideConverts (l : Leaf) : Prop :=
  ∀ g, l.override = some g → ∀ app v w, g true app v = .ok w → l.toNative app v = .ok w

/-- A class the theorem covers: no setters, no polymorphic fields. -/
def PlainClass (c : ClassDef) : Prop :=
  c.WF ∧ PureValidators c ∧
    ∀ fd ∈ c.fields, fd.fset = none ∧ fd.field.NoPoly ∧ fd.field.AllLeaves OverrideConverts

/-- All classes of the table are plain. -/
def Env.Plain (env : Env) : Prop := ∀ k c, env.cls k = some c → PlainClass c

/-- The plain-import variant of a validation context. -/
def Ctx.asImport (ctx : Ctx) : Ctx := { ctx with conv := .imp, validate := false }

theorem subCtx_asImport (env : Env) (ctx : Ctx) (name : String) :
    subCtx env ctx.asImport name = (subCtx env ctx name).asImport := rfl

theorem plain_settable {c : ClassDef} (h : ∀ fd ∈ c.fields, fd.fset = none) : c.settable = [] := by
  unfold ClassDef.settable
  rw [List.filter_eq_nil_iff]
  intro fd hfd
  simp [h fd hfd]

theorem plain_loop {c : ClassDef} (h : ∀ fd ∈ c.fields, fd.fset = none) (ctx : Ctx) :
    c.loopFields ctx = c.fields := by
  unfold ClassDef.loopFields ClassDef.plain
  split
  · rfl
  · rw [List.filter_eq_self]
    intro fd hfd
    simp [h fd hfd]

theorem fieldRes_transfer {rec rec' : Rec} {env : Env} {ctx ctx' : Ctx} {raw : Data} {fd : FieldDef}
    {o : Outcome} (hm : ctx'.mapping = ctx.mapping) (htr : ctx'.trusted = ctx.trusted)
    (hd : ctx'.defaults = ctx.defaults) (hi : ctx'.init = ctx.init)
    (hrec : ∀ v w, rec (if fd.field.ty.isCompound then subCtx env ctx fd.name else ctx) true fd.field v
        = .ok w →
      rec' (if fd.field.ty.isCompound then subCtx env ctx' fd.name else ctx') true fd.field v = .ok w)
    (h : fieldRes rec env ctx raw fd = .ok o) (herr : o.err = none) :
    fieldRes rec' env ctx' raw fd = .ok o := by
  unfold fieldRes fieldOutcome at h ⊢
  simp only [] at h ⊢
  rw [hm, htr]
  split at h
  · rename_i hc; rw [if_pos hc]; exact h
  · rename_i hc
    rw [if_neg hc]
    have hfill : fillValue ctx' fd (inputValue raw ctx.mapping fd) =
        fillValue ctx fd (inputValue raw ctx.mapping fd) := by
      unfold fillValue; rw [hd, hi]
    rw [hfill]
    split at h
    · rename_i w hw
      rw [hrec _ _ hw]
      exact h
    · split at h
      · injection h with h; subst h; simp [Outcome.err] at herr
      · cases h

theorem importBody_transfer {rec rec' : Rec} {env : Env} {ctx ctx' : Ctx} {c : ClassDef} {raw : Data}
    {errs0 : Errs} {d : Data} (hc : c.WF) (hpl : ∀ fd ∈ c.fields, fd.fset = none)
    (hm : ctx'.mapping = ctx.mapping) (htr : ctx'.trusted = ctx.trusted)
    (hd : ctx'.defaults = ctx.defaults) (hi : ctx'.init = ctx.init) (hs : ctx'.strict = ctx.strict)
    (hrec : ∀ fd ∈ c.fields, ∀ v w,
      rec (if fd.field.ty.isCompound then subCtx env ctx fd.name else ctx) true fd.field v = .ok w →
      rec' (if fd.field.ty.isCompound then subCtx env ctx' fd.name else ctx') true fd.field v = .ok w)
    (h : importBody rec env ctx c raw errs0 = .ok d) : importBody rec' env ctx' c raw [] = .ok d := by
  rw [importBody_eq _ _ _ _ hc] at h ⊢
  rw [plain_loop hpl] at h ⊢
  cases hos : outcomes (fieldRes rec env ctx raw) c.fields with
  | error e => rw [hos] at h; cases h
  | ok os =>
    rw [hos] at h
    simp only [] at h
    split at h
    · rename_i hemp
      injection h with h
      rw [List.isEmpty_iff, applyAll_errs_empty] at hemp
      have hcongr : outcomes (fieldRes rec' env ctx' raw) c.fields =
          outcomes (fieldRes rec env ctx raw) c.fields := by
        apply outcomes_congr
        intro fd hfd
        have hmem : fd ∈ os.map (·.1) := by rw [outcomes_map_fst hos]; exact hfd
        obtain ⟨⟨fd', o⟩, hpo, rfl⟩ := List.mem_map.1 hmem
        have ho := outcomes_mem hos _ hpo
        rw [ho]
        exact fieldRes_transfer hm htr hd hi (hrec _ hfd) ho (hemp.2 _ hpo)
      rw [hcongr, hos]
      simp only []
      have hst : startErrs ctx' c raw [] = [] := by
        have h1 : startErrs ctx c raw errs0 = [] := hemp.1
        have hr : rogueKeys ctx c raw = [] := by
          rw [List.eq_nil_iff_forall_not_mem]
          intro k hk
          have := (mem_startErrs ctx c raw errs0 k).2 (Or.inr hk)
          rw [h1] at this
          cases this
        have hr' : rogueKeys ctx' c raw = rogueKeys ctx c raw := by
          unfold rogueKeys; rw [hs, hm]
        simp [startErrs, hr', hr]
      have hset : ∀ (cx : Ctx) (x : Data), copySettable c cx raw x = x := by
        intro cx x
        simp [copySettable, plain_settable hpl]
      have hdata : (applyAll os ⟨ctx.trusted, startErrs ctx c raw errs0⟩).data =
          (applyAll os ⟨ctx'.trusted, []⟩).data := by
        rw [htr]
        have : ∀ (os : List (FieldDef × Outcome)) (a b : Acc), a.data = b.data →
            (applyAll os a).data = (applyAll os b).data := by
          intro os
          induction os with
          | nil => intro a b h; exact h
          | cons p os ih =>
            intro a b h
            refine ih _ _ ?_
            cases p.2 with
            | skip => exact h
            | store v => simp [Acc.apply, h]
            | fail t r => cases r <;> simp [Acc.apply, h]
        exact this _ _ _ rfl
      rw [hst, hset, if_pos]
      · rw [← h, hset, hdata]
      · rw [List.isEmpty_iff, applyAll_errs_empty]
        exact ⟨rfl, hemp.2⟩
    · cases h

theorem runMutate_plain {rec : Rec} {ctx : Ctx} {c : ClassDef} (hpl : ∀ fd ∈ c.fields, fd.fset = none)
    (raw : Data) : runMutate rec ctx c (.inst []) raw = .ok ⟨[], [], raw⟩ := by
  have hview : c.view [] = [] := by
    unfold ClassDef.view
    rw [List.filterMap_eq_nil_iff]
    intro fd hfd
    simp [hpl fd hfd]
  simp [runMutate, plain_settable hpl, runSetters, hview]

/-- a validated list conversion gives the same list on plain import -/
theorem listConv_transfer {f g : Val → R Val} (hfg : ∀ v w, f v = .ok w → g v = .ok w)
    {xs : List Val} {w : Val} (h : listConv f xs = .ok w) : listConv g xs = .ok w := by
  obtain ⟨ys, rfl, hall⟩ := listConv_ok h
  have : ∀ i, listLoop g i xs = .ok (ys, []) := by
    clear h
    induction hall with
    | nil => intro i; rfl
    | cons a _ ih => intro i; simp [listLoop, hfg _ _ a, ih]
  simp [listConv, this]

theorem dictLoop_errs_mono {f : Val → R Val} {co : Key → R Key} {kvs : List (Key × Val)} {d d' : Data}
    {es : Errs} (h : dictLoop f co kvs d es = .ok (d', [])) : es = [] := by
  have := (dictLoop_spec h).2.1
  cases es with
  | nil => rfl
  | cons a es => have := (this a.1).2 (Or.inl (by simp)); cases this

theorem dictLoop_transfer {f g : Val → R Val} (hfg : ∀ v w, f v = .ok w → g v = .ok w)
    {co : Key → R Key} {kvs : List (Key × Val)} {d d' : Data} {es : Errs}
    (h : dictLoop f co kvs d es = .ok (d', [])) : dictLoop g co kvs d es = .ok (d', []) := by
  induction kvs generalizing d es with
  | nil => exact h
  | cons kx kvs ih =>
    obtain ⟨k0, x0⟩ := kx
    rw [dictLoop_cons] at h ⊢
    cases he : convEntry f co k0 x0 with
    | ok p =>
      rw [he] at h
      have : convEntry g co k0 x0 = .ok p := by
        unfold convEntry at he ⊢
        split at he
        · cases he
        · rename_i y hy; rw [hfg _ _ hy]; exact he
      rw [this]
      exact ih h
    | error e =>
      rw [he] at h
      simp only [] at h
      split at h
      · have := dictLoop_errs_mono h
        have hk := (Dict.mem_keys_set es k0 k0 e.tree).2 (Or.inl rfl)
        rw [this] at hk; cases hk
      · cases h

theorem dictConv_transfer {f g : Val → R Val} (hfg : ∀ v w, f v = .ok w → g v = .ok w)
    {co : Key → R Key} {kvs : List (Key × Val)} {w : Val} (h : dictConv f co kvs = .ok w) :
    dictConv g co kvs = .ok w := by
  unfold dictConv at h ⊢
  split at h
  · cases h
  · rename_i d es hl
    split at h
    · rename_i he
      rw [List.isEmpty_iff] at he
      subst he
      rw [dictLoop_transfer hfg hl]
      exact h
    · cases h

theorem fieldConv_asImport {env : Env} (hpl : env.Plain) :
    ∀ n (ctx : Ctx) b f v w, ctx.conv = .val → ctx.convert = true → ctx.validate = true →
      f.NoPoly → f.AllLeaves OverrideConverts →
      fieldConv env n ctx b f v = .ok w → fieldConv env n ctx.asImport b f v = .ok w := by
  intro n
  induction n with
  | zero => intro ctx b f v w _ _ _ _ _ h; cases h
  | succ n ih =>
    intro ctx b f v w hconv hcv hval hnp hlv h
    simp only [fieldConv, fieldConvF] at h ⊢
    have hreq : requiredFails ctx.asImport b f v = requiredFails ctx b f v := rfl
    rw [hreq]
    split at h
    · cases h
    · rename_i hr
      rw [if_neg hr]
      split at h
      · rename_i hv; rw [if_pos hv]; exact h
      · rename_i hv
        rw [if_neg hv]
        rw [hconv] at h
        show convertF (fieldConv env n) env ctx.asImport f v = .ok w
        -- the converted value
        have hc : convertF (fieldConv env n) env ctx f v = .ok w ∨
            ∃ l o, f = .mk (.leaf l) o ∧ l.toNative ctx.app v = .ok w := by
          simp only [validateF] at h
          split at h
          · rename_i g hg
            right
            obtain ⟨t, o⟩ := f
            cases t with
            | leaf l =>
              rw [hcv] at h
              exact ⟨l, o, rfl, (show OverrideConverts l from hlv) g hg _ _ _ h⟩
            | _ => cases hg
          · rw [hcv] at h
            simp only [if_true] at h
            left
            split at h
            · cases h
            · rename_i w' hw'; rw [(finishValidation_ok h).1]; exact hw'
        rcases hc with hc | ⟨l, o, rfl, hc⟩
        · obtain ⟨t, o⟩ := f
          -- nested model bodies
          have hbody : ∀ k c raw' errs d, env.cls k = some c →
              importBody (fieldConv env n) env ctx c raw' errs = .ok d →
              importBody (fieldConv env n) env ctx.asImport c raw' [] = .ok d := by
            intro k c raw' errs d hcls hb
            obtain ⟨hwf, _, hfd⟩ := hpl k c hcls
            refine importBody_transfer (rec := fieldConv env n) (rec' := fieldConv env n) (ctx := ctx) (ctx' := ctx.asImport) hwf (fun fd h => (hfd fd h).1) rfl rfl rfl rfl rfl ?_ hb
            intro fd hf v w hvw
            split at hvw
            · rename_i hcomp
              rw [if_pos hcomp, subCtx_asImport]
              exact ih _ _ _ _ _ hconv hcv hval (hfd fd hf).2.1 (hfd fd hf).2.2 hvw
            · rename_i hcomp
              rw [if_neg hcomp]
              exact ih _ _ _ _ _ hconv hcv hval (hfd fd hf).2.1 (hfd fd hf).2.2 hvw
          cases t with
          | leaf l => exact hc
          | list inner mn mx =>
            simp only [convertF, Field.ty_mk] at hc ⊢
            split at hc
            · cases hc
            · rename_i xs hxs
              exact listConv_transfer (fun v w => ih ctx false inner v w hconv hcv hval
                (by simpa [Field.NoPoly, FType.NoPoly] using hnp)
                (by simpa [Field.AllLeaves, FType.AllLeaves] using hlv)) hc
          | dict inner co =>
            simp only [convertF, Field.ty_mk] at hc ⊢
            split at hc
            · exact dictConv_transfer (fun v w => ih ctx false inner v w hconv hcv hval
                (by simpa [Field.NoPoly, FType.NoPoly] using hnp)
                (by simpa [Field.AllLeaves, FType.AllLeaves] using hlv)) hc
            · cases hc
          | model cls =>
            simp only [convertF, Field.ty_mk] at hc ⊢
            have hinto : ∀ k c raw' bi w, env.cls k = some c →
                modelInto (fieldConv env n) env ctx c raw' bi = .ok w →
                modelInto (fieldConv env n) env ctx.asImport c raw' bi = .ok w := by
              intro k c raw' bi w hcls hm
              obtain ⟨hwf, hpure, hfd⟩ := hpl k c hcls
              unfold modelInto at hm ⊢
              have hflag : (ctx.asImport.convert && ctx.asImport.oo) = (ctx.convert && ctx.oo) := rfl
              rw [hflag]
              split at hm
              · rename_i hoo
                rw [if_pos hoo]
                unfold newInstance at hm ⊢
                rw [hval] at hm
                simp only [if_true] at hm
                have hvf : ctx.asImport.validate = false := rfl
                rw [hvf]
                simp only [Bool.false_eq_true, if_false]
                split at hm
                · cases hm
                · rename_i d hd
                  obtain ⟨m, d0, h1, h2, h3⟩ := validateFn_ok hd
                  rw [runMutate_plain (fun fd h => (hfd fd h).1)] at h1
                  injection h1 with h1
                  subst h1
                  have hdd := validateModel_pure hpure h3
                  subst hdd
                  have := hbody k c _ _ _ hcls h2
                  simp only [importLoop]
                  rw [if_neg (by simp [Ctx.asImport]), this]
                  exact hm
              · rename_i hoo
                rw [if_neg hoo]
                split at hm
                · cases hm
                · rename_i d hd
                  unfold importLoop at hd ⊢
                  rw [hval] at hd
                  simp only [if_true] at hd
                  rw [if_neg (by simp [Ctx.asImport])]
                  split at hd
                  · cases hd
                  · rename_i m hmu
                    have hraw : m.raw = raw' := by
                      simp only [runMutate] at hmu
                      split at hmu
                      · cases hmu
                      · split at hmu
                        · cases hmu
                        · injection hmu with hmu; rw [← hmu]
                    rw [hraw] at hd
                    rw [hbody k c _ _ _ hcls hd]
                    exact hm
            unfold modelConv at hc ⊢
            split at hc
            · split at hc
              · rename_i hs
                split at hc
                · rename_i c hcls
                  rw [if_pos hs]
                  exact hinto _ c _ _ _ hcls hc
                · cases hc
              · cases hc
            · split at hc
              · rename_i c hcls
                exact hinto _ c _ _ _ hcls hc
              · cases hc
            · cases hc
          | poly p => exact absurd hnp (by simp [Field.NoPoly, FType.NoPoly])
        · exact hc

/-- **C19.** Validation only restricts conversion: if validating an input succeeds with
data `d`, the plain import of the same input succeeds with the same `d`, for schemas
of any depth without polymorphic fields and setters whose model-level validators
only check. -/
theorem C19_validation_restricts_conversion (env : Env) (n : Nat) (ctx : Ctx) (c : ClassDef) (raw d : Data)
    (hpl : env.Plain) (hc : PlainClass c) (hconv : ctx.conv = .val) (hcv : ctx.convert = true)
    (hval : ctx.validate = true) (h : runValidate env n ctx c (.inst []) raw = .ok d) :
    runImport env n ctx.asImport c (.inst []) raw = .ok d := by
  obtain ⟨hwf, hpure, hfd⟩ := hc
  obtain ⟨m, d0, h1, h2, h3⟩ := validateFn_ok h
  rw [runMutate_plain (fun fd h => (hfd fd h).1)] at h1
  injection h1 with h1
  subst h1
  have hdd := validateModel_pure hpure h3
  subst hdd
  unfold runImport importLoop
  rw [if_neg (by simp [Ctx.asImport])]
  refine importBody_transfer (rec := fieldConv env n) (rec' := fieldConv env n) (ctx := ctx) (ctx' := ctx.asImport) hwf (fun fd h => (hfd fd h).1) rfl rfl rfl rfl rfl ?_ h2
  intro fd hf v w hvw
  split at hvw
  · rename_i hcomp
    rw [if_pos hcomp, subCtx_asImport]
    exact fieldConv_asImport hpl _ _ _ _ _ _ hconv hcv hval (hfd fd hf).2.1 (hfd fd hf).2.2 hvw
  · rename_i hcomp
    rw [if_neg hcomp]
    exact fieldConv_asImport hpl _ _ _ _ _ _ hconv hcv hval (hfd fd hf).2.1 (hfd fd hf).2.2 hvw

/-! ## The hypotheses are met -/

theorem Samples.env_wf : Samples.env.WF := Samples.env_classes Samples.item_wf Samples.order_wf
theorem Samples.env_pure : Samples.env.Pure :=
  Samples.env_classes (by intro nf h; cases h) (by intro nf h; cases h)
theorem Samples.order_leaves {P : Leaf → Prop} (hi : P Samples.intLeaf) (hs : P Samples.strLeaf) :
    ∀ fd ∈ Samples.order.fields, fd.field.AllLeaves P :=
  Samples.order_fields hi trivial hi hs trivial
theorem Samples.env_leaves {P : Leaf → Prop} (hi : P Samples.intLeaf) (hs : P Samples.strLeaf) :
    Samples.env.AllLeaves P :=
  Samples.env_classes (Samples.item_fields hi hs) (Samples.order_leaves hi hs)
theorem Samples.int_keeps : LeafKeeps Samples.intLeaf :=
  ⟨fun app v w _ h => by obtain ⟨i, rfl⟩ := Samples.intLeaf_ok h; rfl, fun g h => by cases h⟩
theorem Samples.str_keeps : LeafKeeps Samples.strLeaf :=
  ⟨fun app v w _ h => by obtain ⟨i, rfl⟩ := Samples.strLeaf_ok h; rfl, fun g h => by cases h⟩

example := C05_required_at_every_depth Samples.env 5 Samples.ictx Samples.order (.inst []) Samples.good Samples.goodData
  Samples.env_wf Samples.env_pure (Samples.env_leaves Samples.int_keeps Samples.str_keeps) Samples.order_wf
  (Samples.order_leaves Samples.int_keeps Samples.str_keeps) (Or.inl rfl) (Or.inl rfl) (Or.inl Samples.import_good)
example := C05_required_top Samples.env 5 Samples.vctx Samples.order (.inst []) Samples.good Samples.goodData
  Samples.env_wf Samples.env_pure (Samples.env_leaves Samples.int_keeps Samples.str_keeps) Samples.order_wf
  (Samples.order_leaves Samples.int_keeps Samples.str_keeps) (Or.inl rfl) (Or.inr rfl) rfl
  (Or.inr ⟨(by intro nf h; cases h), Samples.validate_good⟩)
example := C08_init_leaves_nothing_undefined Samples.env 5 Samples.ictx Samples.order (.inst []) Samples.good Samples.goodData
  Samples.env_pure Samples.order_wf (Samples.order_leaves Samples.int_keeps Samples.str_keeps) rfl (Or.inl Samples.import_good)
example := C17_validated_everywhere Samples.env 5 Samples.vctx Samples.order (.inst []) Samples.good Samples.goodData
  Samples.env_wf Samples.env_pure (Samples.env_leaves rfl rfl) Samples.order_wf
  (by intro nf h; cases h) (Samples.order_leaves rfl rfl) (Or.inl rfl) rfl rfl rfl Samples.validate_good

theorem Samples.item_plain : PlainClass Samples.item :=
  ⟨Samples.item_wf, (by intro nf h; cases h),
    Samples.item_fields ⟨rfl, trivial, (by intro g h; cases h)⟩ ⟨rfl, trivial, (by intro g h; cases h)⟩⟩
theorem Samples.order_plain : PlainClass Samples.order :=
  ⟨Samples.order_wf, (by intro nf h; cases h),
    Samples.order_fields ⟨rfl, trivial, (by intro g h; cases h)⟩ ⟨rfl, trivial, trivial⟩
      ⟨rfl, trivial, (by intro g h; cases h)⟩ ⟨rfl, trivial, (by intro g h; cases h)⟩ ⟨rfl, trivial, trivial⟩⟩
example := C19_validation_restricts_conversion Samples.env 5 Samples.vctx Samples.order Samples.good Samples.goodData
  (Samples.env_classes Samples.item_plain Samples.order_plain) Samples.order_plain rfl rfl rfl Samples.validate_good

end Verif
