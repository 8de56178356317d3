import Verif.Props.ErrorTree
import Verif.Props.Termination
import Verif.Props.Setters

/-! # C15 for validation: the error tree of a validation mirrors the data tree -/
namespace Verif

/-! ## Specification vocabulary -/

/-- The model class and raw data a model-valued field opens when validating. -/
inductive VOpens (env : Env) : FType → Val → ClassDef → Data → Prop
  | dict {cls d c} : env.cls cls = some c → VOpens env (.model cls) (.dict d) c d
  | inst {cls k d c} : env.isSub k cls = true → env.cls k = some c →
      VOpens env (.model cls) (.inst k d) c (c.view d)
  | polyDict {p : PolySpec} {d k c} : p.findModel env (.dict d) = .ok k → env.cls k = some c →
      VOpens env (.poly p) (.dict d) c d
  | polyInst {p : PolySpec} {k' d k c} : p.findModel env (.inst k' d) = .ok k → env.cls k = some c →
      VOpens env (.poly p) (.inst k' d) c (env.view k' d)
  | polyFalsy {p : PolySpec} {v k c} : v.isDict = false → (∀ k' d, v ≠ .inst k' d) → v.truthy = false →
      p.findModel env v = .ok k → env.cls k = some c → VOpens env (.poly p) v c []

/-- The value `x` that the validators of field `f` are shown for the input `v`: what `v` converts to or,
without conversion, `v` itself (after a trial conversion if it is compound). -/
def Shown (env : Env) (ctx : Ctx) (f : Field) (v x : Val) : Prop :=
  (ctx.convert = true ∧ ∃ n, convertF (fieldConv env n) env ctx f v = .ok x) ∨
  (ctx.convert = false ∧ x = v ∧ ((∃ l, f.ty = .leaf l) ∨ ∃ n w, convertF (fieldConv env n) env ctx f v = .ok w))

/-- The `validate_<field>` methods of the fields `fds`, called one after the other on the data `d`, which they may edit: a field that has no method or no value is passed over; the reports of those which
raise.  `mv` is the content of the instance passed as first argument. -/
inductive Sweep (c : ClassDef) (mv : Data) (app : Val) : List FieldDef → Data → List (FieldDef × ErrTree) → Prop
  | done {d} : Sweep c mv app [] d []
  | pass {fd fds d rs} : Dict.get? c.validators fd.name = none ∨ rawValue d fd.name = .undef → Sweep c mv app fds d rs →
      Sweep c mv app (fd :: fds) d rs
  | accept {fd fds g w d d' rs} : Dict.get? c.validators fd.name = some g → Dict.get? d (.str fd.name) = some w → w ≠ .undef →
      g mv d w app = .ok d' → Sweep c mv app fds d' rs → Sweep c mv app (fd :: fds) d rs
  | reject {fd fds d t rs} : Rejects c mv app d fd t → Sweep c mv app fds d rs → Sweep c mv app (fd :: fds) d ((fd, t) :: rs)

/-- The data which the input `raw` of class `c` is converted to, whether all fields are accepted or not. -/
def Collects (env : Env) (ctx : Ctx) (c : ClassDef) (raw d : Data) : Prop :=
  ∃ n, importBody (fieldConv env n) env ctx c raw [] = .ok d ∨ ∃ es, importBody (fieldConv env n) env ctx c raw [] = .error (.data es d)

/-- The `validate_<field>` method of `fd` raises when the methods of the class are called on the converted input `raw`; `t` is its report. -/
def Objects (env : Env) (ctx : Ctx) (c : ClassDef) (mv raw : Data) (fd : FieldDef) (t : ErrTree) : Prop :=
  ∃ d rs, Collects env ctx c raw d ∧ Sweep c mv ctx.app c.fields d rs ∧ (fd, t) ∈ rs

/-- What the setter of the calculated field `fd` does with the input `raw`: it is called with the converted value, if the input has a value under the field's own name; a value that does not convert is
refused as well; `AttributeError`s are ignored. -/
inductive SetterActs (env : Env) (ctx : Ctx) (raw : Data) (fd : FieldDef) : SetterResult → Prop
  | absent : (∀ v, Dict.get? raw (.str fd.name) = some v → v = .undef) → SetterActs env ctx raw fd .nothing
  | unconverted {n v e} : Dict.get? raw (.str fd.name) = some v → v ≠ .undef → fieldConv env n ctx true fd.field v = .error e → e.caught = true →
      SetterActs env ctx raw fd (.refuses e.tree)
  | unreadable {n v} : Dict.get? raw (.str fd.name) = some v → v ≠ .undef → fieldConv env n ctx true fd.field v = .error (.other "AttributeError") →
      SetterActs env ctx raw fd .nothing
  | assigns {n v w f asg} : Dict.get? raw (.str fd.name) = some v → v ≠ .undef → fieldConv env n ctx true fd.field v = .ok w →
      fd.fset = some f → f w = .ok asg → SetterActs env ctx raw fd (.assigns asg)
  | refuses {n v w f e} : Dict.get? raw (.str fd.name) = some v → v ≠ .undef → fieldConv env n ctx true fd.field v = .ok w →
      fd.fset = some f → f w = .error e → e.caught = true → SetterActs env ctx raw fd (.refuses e.tree)
  | noAttribute {n v w f} : Dict.get? raw (.str fd.name) = some v → v ≠ .undef → fieldConv env n ctx true fd.field v = .ok w →
      fd.fset = some f → f w = .error (.other "AttributeError") → SetterActs env ctx raw fd .nothing

/-- The setters have run on the input `raw`, with the results `rs`.  If they work on an instance (`inst`) its content is then `content'`, and the values of the instance replace those of the input. -/
structure Prepared (env : Env) (ctx : Ctx) (c : ClassDef) (inst : Prop) (content raw : Data) (rs : List SetterResult) (content' raw' : Data) : Prop where
  acts : All2 (SetterActs env ctx raw) (settables c) rs
  after : content' = afterSetters content rs
  completed : inst → raw' = raw.update (c.view content')
  unchanged : ¬ inst → raw' = raw

/-- The field is accepted: its input is not looked at, or converts and passes its validators. -/
def Goes (env : Env) (ctx : Ctx) (raw : Data) (fd : FieldDef) : Prop :=
  ¬ Looked ctx raw fd ∨ ∃ n w, fieldConv env n (innerCtx env ctx fd) true fd.field (fillValue ctx fd (inputValue raw ctx.mapping fd)) = .ok w

/-- The methods of a nested model are called, and an instance is made: always for a `PolyModelType`, and for a `ModelType` when instances are made. -/
def Methods (ctx : Ctx) : FType → Prop
  | .model _ => ctx.convert = true ∧ ctx.oo = true
  | .poly _ => True
  | _ => False

mutual
/-- `VProblem env ctx named f v p t`: at location `p` below the input `v` of field `f` there is a value
which fails with `t` by its own when it is validated. -/
inductive VProblem (env : Env) : Ctx → Bool → Field → Val → List Key → ErrTree → Prop
  /-- a required value is missing -/
  | required {ctx named f v} : f.o.required = true → v.isEmpty = true →
      (named = false ∨ ctx.partial_ = false) → VProblem env ctx named f v [] (.leaf .conv ["required"])
  /-- a type with its own way to validate refuses -/
  | own {ctx named l o v g k ms} : v.isEmpty = false → l.override = some g →
      g ctx.convert ctx.app v = .error (.field k ms) → VProblem env ctx named (.mk (.leaf l) o) v [] (.leaf k ms)
  /-- the value converts, but some of the field's validators refuse it -/
  | refused {ctx named f v x vs} : v.isEmpty = false → f.ty.override = none → Shown env ctx f v x →
      All2 (Gives ctx.app x) (checkChoices f.o.choices :: (ownValidators f.ty ++ f.o.validators)) vs → ¬ AllPass vs →
      VProblem env ctx named f v [] (.leaf .valid (collected vs))
  /-- the conversion fails -/
  | inside {ctx named f v p t} : v.isEmpty = false → f.ty.override = none → VInside env ctx f v p t →
      VProblem env ctx named f v p t
/-- The problems found while converting a value for validation. -/
inductive VInside (env : Env) : Ctx → Field → Val → List Key → ErrTree → Prop
  | scalar {ctx l o v k ms} : ctx.convert = true → l.toNative ctx.app v = .error (.field k ms) →
      VInside env ctx (.mk (.leaf l) o) v [] (.leaf k ms)
  | unusable {ctx t o v m} : (∀ p, t ≠ .poly p) → Unusable env t v m → VInside env ctx (.mk t o) v [] (.leaf .conv [m])
  | item {ctx inner mn mx o v xs i x p t} : coerceList env v = some xs → xs[i]? = some x →
      VProblem env ctx false inner x p t → VInside env ctx (.mk (.list inner mn mx) o) v (.int (i : Nat) :: p) t
  | entry {ctx inner co o kvs k x p t} : (k, x) ∈ kvs → VProblem env ctx false inner x p t →
      VInside env ctx (.mk (.dict inner co) o) (.dict kvs) (k :: p) t
  /-- a field of a nested model, unless a `validate_<field>` method replaces its errors -/
  | field {ctx ty o v c raw rs content raw' fd p t} : VOpens env ty v c raw → Prepared env ctx c (Methods ctx ty) [] raw rs content raw' →
      fd ∈ c.fields → Looked ctx raw' fd → (Methods ctx ty → ∀ u, ¬ Objects env ctx c content raw' fd u) →
      VProblem env (innerCtx env ctx fd) true fd.field (fillValue ctx fd (inputValue raw' ctx.mapping fd)) p t →
      VInside env ctx (.mk ty o) v (.str fd.extName :: p) t
  /-- a setter of a nested model refuses, and nothing replaces its error -/
  | setter {ctx ty o v c raw rs content raw' fd u p t} : VOpens env ty v c raw → Prepared env ctx c (Methods ctx ty) [] raw rs content raw' →
      (fd, .refuses u) ∈ (settables c).zip rs → Goes env ctx raw' fd → (Methods ctx ty → ∀ u, ¬ Objects env ctx c content raw' fd u) → At u p t →
      VInside env ctx (.mk ty o) v (.str fd.extName :: p) t
  /-- a `validate_<field>` method of a nested model raises -/
  | method {ctx ty o v c raw rs content raw' fd u p t} : VOpens env ty v c raw → Methods ctx ty → Prepared env ctx c (Methods ctx ty) [] raw rs content raw' →
      Objects env ctx c content raw' fd u → At u p t → VInside env ctx (.mk ty o) v (.str fd.extName :: p) t
  | rogue {ctx ty o v c raw k} : VOpens env ty v c raw → Rogue ctx c raw k → VInside env ctx (.mk ty o) v [k] .rogue
end

/-- A problem at path `k :: p` when an instance of class `c` with the given content is validated with the input `raw`: once the setters have run, a `validate_<field>` method raises; or it does not, and
the field has a problem; or neither, and its setter refuses; or the key is unknown in strict mode. -/
def ModelVProblem (env : Env) (ctx : Ctx) (c : ClassDef) (content raw : Data) (k : Key) (p : List Key) (t : ErrTree) : Prop :=
  ∃ rs content' raw', Prepared env ctx c True content raw rs content' raw' ∧
  ((∃ fd u, k = .str fd.extName ∧ Objects env ctx c content' raw' fd u ∧ At u p t) ∨
  (∃ fd ∈ c.fields, k = .str fd.extName ∧ Looked ctx raw' fd ∧ (∀ u, ¬ Objects env ctx c content' raw' fd u) ∧
    VProblem env (innerCtx env ctx fd) true fd.field (fillValue ctx fd (inputValue raw' ctx.mapping fd)) p t) ∨
  (∃ fd u, k = .str fd.extName ∧ (fd, .refuses u) ∈ (settables c).zip rs ∧ Goes env ctx raw' fd ∧ (∀ u, ¬ Objects env ctx c content' raw' fd u) ∧ At u p t) ∨
  (Rogue ctx c raw k ∧ p = [] ∧ t = .rogue))

/-- The validator passes every value or raises a `ValidationError`. -/
def Validator.Decides (g : Validator) : Prop := ∀ app v, ∃ vd, Gives app v g vd

mutual
/-- Scalars refuse with field errors, key functions do not refuse, validators decide. -/
def FType.HonestV : FType → Prop
  | .leaf l => (∀ app v e, l.toNative app v = .error e → e.caught = true → ∃ k ms, e = .field k ms) ∧
      (∀ g, l.override = some g → ∀ b app v e, g b app v = .error e → e.caught = true → ∃ k ms, e = .field k ms) ∧
      ∀ g ∈ l.validators, Validator.Decides g
  | .list inner _ _ => inner.HonestV
  | .dict inner co => inner.HonestV ∧ ∀ k e, co k = .error e → e.caught = false
  | .model _ => True
  | .poly _ => True
/-- Scalars refuse with field errors, key functions do not refuse, validators decide. -/
def Field.HonestV : Field → Prop
  | .mk t o => t.HonestV ∧ ∀ g ∈ o.validators, Validator.Decides g
end

/-- The `validate_<field>` methods raise no `CompoundError` (they accept, raise a `ValidationError` or other field error, a `DataError`, or crash). -/
def PlainMethods (c : ClassDef) : Prop := ∀ kv ∈ c.validators, ∀ mv d w app es, kv.2 mv d w app ≠ .error (.compound es)

/-- A class with distinct names, distinct external names, honest types and tidy defaults, with any `validate_<field>` methods, getters and setters (which make no mapping with repeated keys out of data which has none). -/
def ClassDef.ProperV (env : Env) (c : ClassDef) : Prop :=
  c.WF ∧ DistinctExt c ∧ PlainMethods c ∧
    ∀ fd ∈ c.fields, (∀ f n ctx v w asg, fd.fset = some f → Tidy env v → fieldConv env n ctx true fd.field v = .ok w → f w = .ok asg → ∀ kv ∈ asg, Tidy env kv.2) ∧
      (∀ g d w, fd.fget = some g → (∀ kv ∈ d, Tidy env kv.2) → g d = some w → Tidy env w) ∧
      fd.field.HonestV ∧ Tidy env fd.field.o.default

/-- All classes are of that kind. -/
def Env.ProperV (env : Env) : Prop := ∀ k c, env.cls k = some c → c.ProperV env

/-! ## Lemmas -/

theorem convertF_le (env : Env) {n m : Nat} (h : n ≤ m) (ctx : Ctx) (f : Field) (v : Val) :
    Le true (convertF (fieldConv env n) env ctx f v) (convertF (fieldConv env m) env ctx f v) := by
  have := Sim.ident.convertF (b := true) (rec := fieldConv env n) (rec' := fieldConv env m) (e := env)
      (f := f) (f' := f) rfl (fun k c _ ctx f _ v => fieldConv_le env h ctx true f.field v)
      (fun ctx f v => fieldConv_le env h ctx false f v) ctx v
  rw [Sim.ident_env] at this
  exact this

/-- The outcome of a conversion does not depend on the stack. -/
theorem convertF_det (env : Env) {n m : Nat} {ctx : Ctx} {f : Field} {v x : Val}
    (hn : convertF (fieldConv env n) env ctx f v ≠ .error .fuel) (hm : convertF (fieldConv env m) env ctx f v = .ok x) :
    convertF (fieldConv env n) env ctx f v = .ok x := by
  rcases Nat.le_total n m with h | h
  · rcases convertF_le env h ctx f v with h' | h'
    · exact absurd h'.2 hn
    · rw [← h', hm]
  · rcases convertF_le env h ctx f v with h' | h'
    · rw [hm] at h'; cases h'.2
    · rw [h', hm]

theorem decides_choices (cs : Option (List Val)) : Validator.Decides (checkChoices cs) := by
  intro app v
  unfold checkChoices
  cases cs with
  | none => exact ⟨.pass, rfl⟩
  | some l =>
    cases h : Val.pyIn v l with
    | true => exact ⟨.pass, by simp [Gives, h]⟩
    | false => exact ⟨.fail ["choices"], by simp [Gives, h]; rfl⟩

theorem decides_length (mn mx : Option Nat) : Validator.Decides (checkLength mn mx) := by
  intro app v
  unfold checkLength
  cases h1 : tooShort mn (pyLen v) with
  | true => exact ⟨.fail ["min_size"], by simp [Gives, h1]; rfl⟩
  | false =>
    cases h2 : tooLong mx (pyLen v) with
    | true => exact ⟨.fail ["max_size"], by simp [Gives, h1, h2]; rfl⟩
    | false => exact ⟨.pass, by simp [Gives, h1, h2]⟩

theorem allValidators_eq (f : Field) :
    f.allValidators = checkChoices f.o.choices :: (ownValidators f.ty ++ f.o.validators) := by
  unfold Field.allValidators
  cases f.ty <;> rfl

theorem honestV_decides {f : Field} (hf : f.HonestV) : ∀ g ∈ f.allValidators, Validator.Decides g := by
  rw [allValidators_eq]
  obtain ⟨t, o⟩ := f
  intro g hg
  rcases List.mem_cons.1 hg with rfl | hg
  · exact decides_choices _
  rcases List.mem_append.1 hg with hg | hg
  · cases t with
    | leaf l => exact hf.1.2.2 g hg
    | list inner mn mx =>
      simp only [ownValidators, Field.ty, List.mem_cons, List.not_mem_nil, or_false] at hg
      subst hg
      exact decides_length _ _
    | _ => simp [ownValidators, Field.ty] at hg
  · exact hf.2 g hg

theorem verdicts {gs : List Validator} (h : ∀ g ∈ gs, Validator.Decides g) (app v : Val) :
    ∃ vs, All2 (Gives app v) gs vs := by
  induction gs with
  | nil => exact ⟨[], .nil⟩
  | cons g gs ih =>
    obtain ⟨vd, hvd⟩ := h g (List.mem_cons_self ..) app v
    obtain ⟨vs, hvs⟩ := ih fun g hg => h g (List.mem_cons_of_mem _ hg)
    exact ⟨vd :: vs, .cons hvd hvs⟩

/-- What the validators of a field add to the reported problems. -/
theorem finish_rep {f : Field} (hf : f.HonestV) (app x : Val) (p : List Key) (t : ErrTree) :
    NoCrash (finishValidation app x f.allValidators) ∧
    (Rep (finishValidation app x f.allValidators) p t ↔ p = [] ∧ ∃ vs,
      All2 (Gives app x) (checkChoices f.o.choices :: (ownValidators f.ty ++ f.o.validators)) vs ∧ ¬ AllPass vs ∧
      t = .leaf .valid (collected vs)) := by
  have hv := verdicts (honestV_decides hf) app x
  have hrun : ∀ vs, All2 (Gives app x) f.allValidators vs →
      (AllPass vs → finishValidation app x f.allValidators = .ok x) ∧
      (¬ AllPass vs → finishValidation app x f.allValidators = .error (.field .valid (collected vs))) := by
    intro vs hvs
    obtain ⟨h1, h2⟩ := runValidators_spec hvs
    unfold finishValidation
    exact ⟨fun h => by rw [h1 h], fun h => by rw [h2 h]⟩
  rw [← allValidators_eq]
  obtain ⟨vs, hvs⟩ := hv
  obtain ⟨h1, h2⟩ := hrun vs hvs
  by_cases hp : AllPass vs
  · rw [h1 hp]
    refine ⟨fun e he => (by cases he), fun h => absurd h rep_ok, ?_⟩
    rintro ⟨_, vs', hvs', hp', _⟩
    have := (hrun vs' hvs').2 hp'
    rw [h1 hp] at this; cases this
  · rw [h2 hp]
    refine ⟨fun e he => by injection he with he; subst he; rfl, ?_, ?_⟩
    · rintro ⟨e, he, hat⟩
      injection he with he; subst he
      obtain ⟨rfl, rfl⟩ := at_leaf.1 hat
      exact ⟨rfl, vs, hvs, hp, rfl⟩
    · rintro ⟨rfl, vs', hvs', hp', rfl⟩
      have := (hrun vs' hvs').2 hp'
      rw [h2 hp] at this
      injection this with this
      exact ⟨_, rfl, by rw [this]; exact at_leaf.2 ⟨rfl, rfl⟩⟩

theorem importBody_le (env : Env) {n m : Nat} (h : n ≤ m) (ctx : Ctx) (c : ClassDef) (raw : Data) (es : Errs) :
    Le true (importBody (fieldConv env n) env ctx c raw es) (importBody (fieldConv env m) env ctx c raw es) := by
  have := Sim.ident.importBody (b := true) (rec := fieldConv env n) (rec' := fieldConv env m) (e := env) (c := c)
      (fun ctx f _ v => fieldConv_le env h ctx true f.field v) ctx raw es
  rw [Sim.ident_env, Sim.ident_cls] at this
  exact this

/-- The outcome of the loop does not depend on the stack. -/
theorem importBody_det (env : Env) {n m : Nat} {ctx : Ctx} {c : ClassDef} {raw : Data} {es : Errs}
    (hn : importBody (fieldConv env n) env ctx c raw es ≠ .error .fuel) (hm : importBody (fieldConv env m) env ctx c raw es ≠ .error .fuel) :
    importBody (fieldConv env n) env ctx c raw es = importBody (fieldConv env m) env ctx c raw es := by
  rcases Nat.le_total n m with h | h
  · rcases importBody_le env h ctx c raw es with h' | h'
    · exact absurd h'.2 hn
    · exact h'.symm
  · rcases importBody_le env h ctx c raw es with h' | h'
    · exact absurd h'.2 hm
    · exact h'

/-- What the loop has collected when it ends. -/
def EndsWith (r : R Data) (d : Data) : Prop := r = .ok d ∨ ∃ es, r = .error (.data es d)

theorem ends_fuel {r : R Data} {d : Data} (h : EndsWith r d) : r ≠ .error .fuel := by
  rcases h with rfl | ⟨es, rfl⟩ <;> exact nofun

theorem collects_det {env : Env} {n : Nat} {ctx : Ctx} {c : ClassDef} {raw d d' : Data}
    (h : EndsWith (importBody (fieldConv env n) env ctx c raw []) d) (h' : Collects env ctx c raw d') : d' = d := by
  obtain ⟨m, h'⟩ := h'
  have h' : EndsWith (importBody (fieldConv env m) env ctx c raw []) d' := h'
  rw [importBody_det env (ends_fuel h') (ends_fuel h)] at h'
  rcases h with h | ⟨es, h⟩ <;> rcases h' with h' | ⟨es', h'⟩ <;> rw [h] at h' <;> cases h' <;> rfl

theorem reportOf_det {e : Exc} {t t' : ErrTree} (h : ReportOf e t) (h' : ReportOf e t') : t' = t := by
  cases h <;> cases h' <;> rfl

theorem sweep_det {c : ClassDef} {mv : Data} {app : Val} {fds : List FieldDef} {d : Data} {rs rs' : List (FieldDef × ErrTree)}
    (h : Sweep c mv app fds d rs) (h' : Sweep c mv app fds d rs') : rs' = rs := by
  induction h generalizing rs' with
  | done => cases h'; rfl
  | pass hp _ ih =>
    cases h' with
    | pass _ h' => exact ih h'
    | accept h1 h2 h3 =>
      rcases hp with hp | hp
      · rw [hp] at h1; cases h1
      · unfold rawValue at hp; rw [h2] at hp; exact absurd hp h3
    | reject h1 =>
      obtain ⟨g, w, e, h1, h2, h3, _⟩ := h1
      rcases hp with hp | hp
      · rw [hp] at h1; cases h1
      · unfold rawValue at hp; rw [h2] at hp; exact absurd hp h3
  | accept h1 h2 h3 h4 _ ih =>
    cases h' with
    | pass hp =>
      rcases hp with hp | hp
      · rw [hp] at h1; cases h1
      · unfold rawValue at hp; rw [h2] at hp; exact absurd hp h3
    | accept h1' h2' _ h4' h' =>
      rw [h1] at h1'; cases h1'
      rw [h2] at h2'; cases h2'
      rw [h4] at h4'; cases h4'
      exact ih h'
    | reject h1' =>
      obtain ⟨g, w, e, h1', h2', _, h4', _⟩ := h1'
      rw [h1] at h1'; cases h1'
      rw [h2] at h2'; cases h2'
      rw [h4] at h4'; cases h4'
  | reject h1 _ ih =>
    obtain ⟨g, w, e, h1, h2, h3, h4, h5⟩ := h1
    cases h' with
    | pass hp =>
      rcases hp with hp | hp
      · rw [hp] at h1; cases h1
      · unfold rawValue at hp; rw [h2] at hp; exact absurd hp h3
    | accept h1' h2' _ h4' =>
      rw [h1] at h1'; cases h1'
      rw [h2] at h2'; cases h2'
      rw [h4] at h4'; cases h4'
    | reject h1' h' =>
      obtain ⟨g, w, e, h1', h2', _, h4', h5'⟩ := h1'
      rw [h1] at h1'; cases h1'
      rw [h2] at h2'; cases h2'
      rw [h4] at h4'; cases h4'
      rw [reportOf_det h5 h5', ih h']

/-- The reports as entries of the error tree. -/
def entries (rs : List (FieldDef × ErrTree)) : Errs := rs.map fun q => (Key.str q.1.extName, q.2)

theorem rawValue_get {d : Data} {n : String} (h : ¬ (rawValue d n).isUndef = true) :
    Dict.get? d (.str n) = some (rawValue d n) ∧ rawValue d n ≠ .undef := by
  have h' : rawValue d n ≠ .undef := fun e => h ((Val.isUndef_iff _).2 e)
  refine ⟨?_, h'⟩
  unfold rawValue at h' ⊢
  cases hg : Dict.get? d (.str n) with
  | none => rw [hg] at h'; exact absurd rfl h'
  | some w => rfl

/-- The loop of the engine is the sweep. -/
theorem modelValidators_sweep {c : ClassDef} {mv : Data} {app : Val} {fds : List FieldDef} {d : Data} {es : Errs} {inv : List String}
    {d' : Data} (h : modelValidators c mv app fds d = .ok (es, inv, d')) :
    ∃ rs, Sweep c mv app fds d rs ∧ es = entries rs := by
  induction fds generalizing d es inv d' with
  | nil => cases h; exact ⟨[], .done, rfl⟩
  | cons fd fds ih =>
    simp only [modelValidators] at h
    by_cases hu : (rawValue d fd.name).isUndef = true
    · rw [if_pos hu] at h
      obtain ⟨rs, h1, h2⟩ := ih h
      exact ⟨rs, .pass (Or.inr ((Val.isUndef_iff _).1 hu)) h1, h2⟩
    · rw [if_neg hu] at h
      obtain ⟨hw, hne⟩ := rawValue_get hu
      cases hg : Dict.get? c.validators fd.name with
      | none =>
        rw [hg] at h
        obtain ⟨rs, h1, h2⟩ := ih h
        exact ⟨rs, .pass (Or.inl hg) h1, h2⟩
      | some g =>
        rw [hg] at h
        simp only [] at h
        cases hr : g mv d (rawValue d fd.name) app with
        | ok d1 =>
          rw [hr] at h
          obtain ⟨rs, h1, h2⟩ := ih h
          exact ⟨rs, .accept hg hw hne hr h1, h2⟩
        | error e =>
          rw [hr] at h
          simp only [] at h
          cases hrec : modelValidators c mv app fds d with
          | error e' => rw [hrec] at h; cases e <;> cases h
          | ok r =>
            obtain ⟨es1, inv1, d1⟩ := r
            obtain ⟨rs, h1, h2⟩ := ih hrec
            rw [hrec] at h
            cases e with
            | field k m => cases h; exact ⟨_, .reject ⟨g, _, _, hg, hw, hne, hr, .field⟩ h1, by rw [h2]; rfl⟩
            | data es2 p => cases h; exact ⟨_, .reject ⟨g, _, _, hg, hw, hne, hr, .data⟩ h1, by rw [h2]; rfl⟩
            | _ => cases h

theorem modelValidators_crash {c : ClassDef} (hp : PlainMethods c) {mv : Data} {app : Val} {fds : List FieldDef} {d : Data} {e : Exc}
    (h : modelValidators c mv app fds d = .error e) : e.caught = false := by
  induction fds generalizing d e with
  | nil => cases h
  | cons fd fds ih =>
    simp only [modelValidators] at h
    by_cases hu : (rawValue d fd.name).isUndef = true
    · rw [if_pos hu] at h; exact ih h
    · rw [if_neg hu] at h
      cases hg : Dict.get? c.validators fd.name with
      | none => rw [hg] at h; exact ih h
      | some g =>
        rw [hg] at h
        simp only [] at h
        cases hr : g mv d (rawValue d fd.name) app with
        | ok d1 => rw [hr] at h; exact ih h
        | error e' =>
          rw [hr] at h
          simp only [] at h
          have hrest : ∀ e, modelValidators c mv app fds d = .error e → e.caught = false := fun e h => ih h
          cases hrec : modelValidators c mv app fds d with
          | error e2 =>
            rw [hrec] at h
            have := hrest _ hrec
            cases e' with
            | field k m => cases h; exact this
            | data es2 p => cases h; exact this
            | compound es => exact absurd hr (hp _ (Dict.mem_of_get? hg) _ _ _ _ _)
            | other s => cases h; rfl
            | fuel => cases h; rfl
          | ok r =>
            rw [hrec] at h
            cases e' with
            | field k m => cases h
            | data es2 p => cases h
            | compound es => exact absurd hr (hp _ (Dict.mem_of_get? hg) _ _ _ _ _)
            | other s => cases h; rfl
            | fuel => cases h; rfl

theorem popAll_crash {ns : List String} {d : Data} {e : Exc} (h : popAll ns d = .error e) : e.caught = false := by
  induction ns generalizing d with
  | nil => cases h
  | cons n ns ih =>
    simp only [popAll] at h
    split at h
    · exact ih h
    · cases h; rfl

theorem sweep_fields {c : ClassDef} {mv : Data} {app : Val} {fds : List FieldDef} {d : Data} {rs : List (FieldDef × ErrTree)}
    (h : Sweep c mv app fds d rs) : (rs.map (·.1)).Sublist fds := by
  induction h with
  | done => exact .slnil
  | pass _ _ ih => exact ih.cons _
  | accept _ _ _ _ _ ih => exact ih.cons _
  | reject _ _ ih => exact ih.cons_cons _

theorem importBody_plain {rec : Rec} {env : Env} {ctx : Ctx} {c : ClassDef} {raw : Data} {es0 : Errs} {e : Exc}
    (h : importBody rec env ctx c raw es0 = .error e) : e.caught = false ∨ ∃ es d, e = .data es d := by
  unfold importBody at h
  simp only [] at h
  split at h
  · rename_i e' he
    cases h
    have : ∀ fds a, importFields rec env ctx raw fds a = .error e → e.caught = false := by
      intro fds
      induction fds with
      | nil => intro a h; cases h
      | cons fd fds ih =>
        intro a h
        simp only [importFields] at h
        split at h
        · rename_i e2 he2
          cases h
          unfold fieldOutcome at he2
          simp only [] at he2
          split at he2
          · cases he2
          · split at he2
            · split at he2 <;> cases he2
            · split at he2
              · cases he2
              · rename_i hcc; cases he2; simpa using hcc
        · exact ih _ h
    exact Or.inl (this _ _ he)
  · split at h
    · cases h
    · cases h; exact Or.inr ⟨_, _, rfl⟩

/-- The errors of a validation: those of the loop, replaced by the reports of the methods. -/
theorem validateFn_reports {rec : Rec} {env : Env} {ctx : Ctx} {c : ClassDef} (hx : DistinctExt c) (hp : PlainMethods c) {mu : Mut} {raw : Data} {m : MutRes}
    (hm : runMutate rec ctx c mu raw = .ok m) (hn : NoCrash (validateFn rec env ctx c mu raw)) :
    NoCrash (importBody rec env ctx c m.raw m.errs) ∧ (∀ e, validateFn rec env ctx c mu raw = .error e → ∃ es d, e = .data es d) ∧
    ∃ d rs, EndsWith (importBody rec env ctx c m.raw m.errs) d ∧ Sweep c m.data ctx.app c.fields d rs ∧
      (∀ t, ¬ Rep (validateFn rec env ctx c mu raw) [] t) ∧
      ∀ k p t, Rep (validateFn rec env ctx c mu raw) (k :: p) t ↔
        (∃ fd u, (fd, u) ∈ rs ∧ k = .str fd.extName ∧ At u p t) ∨
        ((∀ fd u, (fd, u) ∈ rs → k ≠ .str fd.extName) ∧ Rep (importBody rec env ctx c m.raw m.errs) (k :: p) t) := by
  have fin : ∀ (es : Errs) (d : Data) (r : R Data), (match validateModel c m.data ctx.app d with
        | .error e => .error e
        | .ok (es2, d') => if (es.update es2).isEmpty = true then .ok d' else .error (.data (es.update es2) d')) = r → NoCrash r →
        (∀ e, r = .error e → ∃ es d, e = .data es d) ∧
        ∃ rs, Sweep c m.data ctx.app c.fields d rs ∧ (∀ t, ¬ Rep r [] t) ∧ ∀ k p t, Rep r (k :: p) t ↔
        (∃ fd u, (fd, u) ∈ rs ∧ k = .str fd.extName ∧ At u p t) ∨
        ((∀ fd u, (fd, u) ∈ rs → k ≠ .str fd.extName) ∧ ∃ u, Dict.get? es k = some u ∧ At u p t) := by
    intro es d r hr hnc
    cases hvm : validateModel c m.data ctx.app d with
    | error e =>
      exfalso
      rw [hvm] at hr
      subst hr
      have hcc := hnc _ rfl
      unfold validateModel at hvm
      split at hvm
      · rename_i e' he'
        cases hvm
        rw [modelValidators_crash hp he'] at hcc; cases hcc
      · split at hvm
        · rename_i e' he'
          cases hvm
          rw [popAll_crash he'] at hcc; cases hcc
        · cases hvm
    | ok r2 =>
      obtain ⟨es2, d'⟩ := r2
      rw [hvm] at hr
      simp only [] at hr
      obtain ⟨rs, hsw, hes2⟩ : ∃ rs, Sweep c m.data ctx.app c.fields d rs ∧ es2 = Dict.update [] (entries rs) := by
        unfold validateModel at hvm
        split at hvm
        · cases hvm
        · rename_i es1 inv d1 hmv
          split at hvm
          · cases hvm
          · injection hvm with h; injection h with h1 h2; subst h1
            obtain ⟨rs, h1, rfl⟩ := modelValidators_sweep hmv
            exact ⟨rs, h1, rfl⟩
      have hnd : Dict.Nodup (entries rs) := by
        have h1 : ((rs.map (·.1)).map (·.extName)).Nodup := List.Nodup.sublist ((sweep_fields hsw).map _) hx
        have h2 : Dict.keys (entries rs) = ((rs.map (·.1)).map (·.extName)).map Key.str := by
          simp [Dict.keys, entries, List.map_map, Function.comp_def]
        unfold Dict.Nodup
        rw [h2]
        exact List.Pairwise.map _ (fun a b h e => h (by injection e)) h1
      have hget : ∀ k u, Dict.get? (entries rs) k = some u ↔ ∃ fd, (fd, u) ∈ rs ∧ k = .str fd.extName := by
        intro k u
        have hmem : Dict.get? (entries rs) k = some u ↔ (k, u) ∈ entries rs := ⟨Dict.mem_of_get?, Dict.get?_of_mem hnd⟩
        rw [hmem]
        unfold entries
        rw [List.mem_map]
        constructor
        · rintro ⟨⟨fd, u'⟩, h1, h2⟩; cases h2; exact ⟨fd, h1, rfl⟩
        · rintro ⟨fd, h1, rfl⟩; exact ⟨(fd, u), h1, rfl⟩
      have hupd : ∀ k u, Dict.get? (es.update es2) k = some u ↔
          (∃ fd, (fd, u) ∈ rs ∧ k = .str fd.extName) ∨ ((∀ fd u, (fd, u) ∈ rs → k ≠ .str fd.extName) ∧ Dict.get? es k = some u) := by
        intro k u
        have hnd2 : Dict.Nodup es2 := by rw [hes2]; exact Dict.nodup_update (show Dict.Nodup [] from List.nodup_nil) _
        have hg2 : Dict.get? es2 k = Dict.get? (entries rs) k := by
          rw [hes2, Dict.get?_update _ _ hnd]
          cases Dict.get? (entries rs) k <;> rfl
        rw [Dict.get?_update _ _ hnd2, hg2]
        cases hk : Dict.get? (entries rs) k with
        | some u' =>
          obtain ⟨fd, h1, h2⟩ := (hget k u').1 hk
          simp only [Option.some_or]
          rw [← hk, hget]
          constructor
          · exact Or.inl
          · rintro (h | ⟨h, _⟩)
            · exact h
            · exact absurd h2 (h _ _ h1)
        | none =>
          simp only [Option.none_or]
          have hno : ∀ fd u, (fd, u) ∈ rs → k ≠ .str fd.extName := by
            intro fd u h1 h2
            have := (hget k u).2 ⟨fd, h1, h2⟩
            rw [hk] at this; cases this
          constructor
          · exact fun h => Or.inr ⟨hno, h⟩
          · rintro (⟨fd, h1, h2⟩ | ⟨_, h⟩)
            · exact absurd h2 (hno _ _ h1)
            · exact h
      have hmerge : ∀ k p t, (∃ u, Dict.get? (es.update es2) k = some u ∧ At u p t) ↔
          (∃ fd u, (fd, u) ∈ rs ∧ k = .str fd.extName ∧ At u p t) ∨
          ((∀ fd u, (fd, u) ∈ rs → k ≠ .str fd.extName) ∧ ∃ u, Dict.get? es k = some u ∧ At u p t) := by
        intro k p t
        constructor
        · rintro ⟨u, h1, h2⟩
          rcases (hupd k u).1 h1 with ⟨fd, h3, h4⟩ | ⟨h3, h4⟩
          · exact Or.inl ⟨fd, u, h3, h4, h2⟩
          · exact Or.inr ⟨h3, u, h4, h2⟩
        · rintro (⟨fd, u, h3, h4, h2⟩ | ⟨h3, u, h4, h2⟩)
          · exact ⟨u, (hupd k u).2 (Or.inl ⟨fd, h3, h4⟩), h2⟩
          · exact ⟨u, (hupd k u).2 (Or.inr ⟨h3, h4⟩), h2⟩
      by_cases hemp : (es.update es2).isEmpty = true
      · rw [if_pos hemp] at hr
        subst hr
        refine ⟨fun e h => (by cases h), rs, hsw, fun t => rep_ok, fun k p t => ?_⟩
        rw [← hmerge, List.isEmpty_iff.1 hemp]
        refine ⟨fun h => absurd h rep_ok, ?_⟩
        rintro ⟨u, h, _⟩; cases h
      · rw [if_neg hemp] at hr
        subst hr
        refine ⟨fun e h => ⟨_, _, by injection h with h; exact h.symm⟩, rs, hsw, fun t => ?_, fun k p t => ?_⟩
        · rintro ⟨e, h1, h2⟩
          injection h1 with h1; subst h1
          obtain ⟨_, _, _, h, _⟩ := at_node.1 h2
          cases h
        · rw [← hmerge]
          constructor
          · rintro ⟨e, h1, h2⟩
            injection h1 with h1; subst h1
            obtain ⟨k', q, u, h3, h4, h5⟩ := at_node.1 h2
            injection h3 with h3 h3'; subst h3 h3'
            exact ⟨u, h4, h5⟩
          · rintro ⟨u, h1, h2⟩; exact ⟨_, rfl, .down h1 h2⟩
  unfold validateFn at hn ⊢
  rw [hm] at hn ⊢
  simp only [] at hn ⊢
  cases hb : importBody rec env ctx c m.raw m.errs with
  | ok d =>
    rw [hb] at hn
    simp only [] at hn ⊢
    obtain ⟨h0, rs, h1, h2, h3⟩ := fin [] d _ rfl hn
    refine ⟨fun e he => (by cases he), h0, d, rs, Or.inl rfl, h1, h2, fun k p t => ?_⟩
    refine (h3 k p t).trans ?_
    refine or_congr Iff.rfl (and_congr Iff.rfl ⟨?_, fun h => absurd h rep_ok⟩)
    rintro ⟨u, h, _⟩; cases h
  | error e =>
    cases e with
    | data es d =>
      rw [hb] at hn
      simp only [] at hn ⊢
      obtain ⟨h0, rs, h1, h2, h3⟩ := fin es d _ rfl hn
      refine ⟨fun e he => by injection he with he; subst he; rfl, h0, d, rs, Or.inr ⟨es, rfl⟩, h1, h2, fun k p t => ?_⟩
      refine (h3 k p t).trans ?_
      refine or_congr Iff.rfl (and_congr Iff.rfl ⟨?_, ?_⟩)
      · rintro ⟨u, h1, h2⟩; exact ⟨_, rfl, .down h1 h2⟩
      · rintro ⟨e, h1, h2⟩
        injection h1 with h1; subst h1
        obtain ⟨k', q, u, h3, h4, h5⟩ := at_node.1 h2
        injection h3 with h3 h3'; subst h3 h3'
        exact ⟨u, h4, h5⟩
    | compound es => rcases importBody_plain hb with h | ⟨_, _, h⟩ <;> cases h
    | field k m => rcases importBody_plain hb with h | ⟨_, _, h⟩ <;> cases h
    | _ =>
      rw [hb] at hn
      have := hn _ rfl
      cases this

theorem objects_iff {env : Env} {n : Nat} {ctx : Ctx} {c : ClassDef} {mv raw d : Data} {rs : List (FieldDef × ErrTree)}
    (hd : EndsWith (importBody (fieldConv env n) env ctx c raw []) d) (hs : Sweep c mv ctx.app c.fields d rs) (fd : FieldDef) (u : ErrTree) :
    Objects env ctx c mv raw fd u ↔ (fd, u) ∈ rs := by
  constructor
  · rintro ⟨d', rs', h1, h2, h3⟩
    have h1 := collects_det hd h1
    subst h1
    have h2 := sweep_det hs h2
    subst h2
    exact h3
  · intro h; exact ⟨d, rs, ⟨n, hd⟩, hs, h⟩

theorem objects_mem {env : Env} {ctx : Ctx} {c : ClassDef} {mv raw : Data} {fd : FieldDef} {u : ErrTree}
    (h : Objects env ctx c mv raw fd u) : fd ∈ c.fields := by
  obtain ⟨d, rs, _, h2, h3⟩ := h
  exact (sweep_fields h2).subset (List.mem_map.2 ⟨_, h3, rfl⟩)

theorem fieldConv_det {env : Env} {n m : Nat} {ctx : Ctx} {named : Bool} {f : Field} {v : Val} {r r' : R Val}
    (hn : fieldConv env n ctx named f v = r) (hm : fieldConv env m ctx named f v = r') (h1 : r ≠ .error .fuel) (h2 : r' ≠ .error .fuel) : r' = r := by
  rcases Nat.le_total n m with h | h
  · rcases fieldConv_le env h ctx named f v with h' | h'
    · rw [hn] at h'; exact absurd h'.2 h1
    · rw [hn, hm] at h'; exact h'
  · rcases fieldConv_le env h ctx named f v with h' | h'
    · rw [hm] at h'; exact absurd h'.2 h2
    · rw [hn, hm] at h'; exact h'.symm

theorem caught_fuel {e : Exc} (h : e.caught = true) : (.error e : R Val) ≠ .error .fuel := by
  intro he; injection he with he; subst he; cases h

theorem acts_det {env : Env} {ctx : Ctx} {raw : Data} {fd : FieldDef} {r r' : SetterResult}
    (h : SetterActs env ctx raw fd r) (h' : SetterActs env ctx raw fd r') : r' = r := by
  -- the outcome of the conversion decides
  have conv : ∀ {n m v v'} {a a' : R Val}, Dict.get? raw (.str fd.name) = some v → Dict.get? raw (.str fd.name) = some v' →
      fieldConv env n ctx true fd.field v = a → fieldConv env m ctx true fd.field v' = a' → a ≠ .error .fuel → a' ≠ .error .fuel → a' = a := by
    intro n m v v' a a' g g' c c' h1 h2
    rw [g] at g'; injection g' with g'; subst g'
    exact fieldConv_det c c' h1 h2
  have okf : ∀ {w : Val}, (.ok w : R Val) ≠ .error .fuel := fun h => (by cases h)
  have atf : (.error (.other "AttributeError") : R Val) ≠ .error .fuel := fun h => (by cases h)
  have absn : ∀ {v}, (∀ v, Dict.get? raw (.str fd.name) = some v → v = .undef) → Dict.get? raw (.str fd.name) = some v → v ≠ .undef → r' = r :=
    fun h g hv => absurd (h _ g) hv
  cases h with
  | absent h =>
    cases h' with
    | absent => rfl
    | unconverted g hv => exact absn h g hv
    | unreadable g hv => exact absn h g hv
    | assigns g hv => exact absn h g hv
    | refuses g hv => exact absn h g hv
    | noAttribute g hv => exact absn h g hv
  | unconverted g hv c hc =>
    cases h' with
    | absent h => exact absn h g hv
    | unconverted g' _ c' hc' => have := conv g g' c c' (caught_fuel hc) (caught_fuel hc'); injection this with this; subst this; rfl
    | unreadable g' _ c' => have := conv g g' c c' (caught_fuel hc) atf; injection this with this; subst this; cases hc
    | assigns g' _ c' => cases conv g g' c c' (caught_fuel hc) okf
    | refuses g' _ c' => cases conv g g' c c' (caught_fuel hc) okf
    | noAttribute g' _ c' => cases conv g g' c c' (caught_fuel hc) okf
  | unreadable g hv c =>
    cases h' with
    | absent h => exact absn h g hv
    | unconverted g' _ c' hc' => have := conv g g' c c' atf (caught_fuel hc'); injection this with this; subst this; cases hc'
    | unreadable => rfl
    | assigns g' _ c' => cases conv g g' c c' atf okf
    | refuses g' _ c' => cases conv g g' c c' atf okf
    | noAttribute => rfl
  | assigns g hv c hf hw =>
    cases h' with
    | absent h => exact absn h g hv
    | unconverted g' _ c' hc' => cases conv g g' c c' okf (caught_fuel hc')
    | unreadable g' _ c' => cases conv g g' c c' okf atf
    | assigns g' _ c' hf' hw' =>
      have := conv g g' c c' okf okf; injection this with this; subst this
      rw [hf] at hf'; injection hf' with hf'; subst hf'
      rw [hw] at hw'; injection hw' with hw'; subst hw'; rfl
    | refuses g' _ c' hf' hw' =>
      have := conv g g' c c' okf okf; injection this with this; subst this
      rw [hf] at hf'; injection hf' with hf'; subst hf'
      rw [hw] at hw'; cases hw'
    | noAttribute g' _ c' hf' hw' =>
      have := conv g g' c c' okf okf; injection this with this; subst this
      rw [hf] at hf'; injection hf' with hf'; subst hf'
      rw [hw] at hw'; cases hw'
  | refuses g hv c hf hw hc =>
    cases h' with
    | absent h => exact absn h g hv
    | unconverted g' _ c' hc' => cases conv g g' c c' okf (caught_fuel hc')
    | unreadable g' _ c' => cases conv g g' c c' okf atf
    | assigns g' _ c' hf' hw' =>
      have := conv g g' c c' okf okf; injection this with this; subst this
      rw [hf] at hf'; injection hf' with hf'; subst hf'
      rw [hw] at hw'; cases hw'
    | refuses g' _ c' hf' hw' =>
      have := conv g g' c c' okf okf; injection this with this; subst this
      rw [hf] at hf'; injection hf' with hf'; subst hf'
      rw [hw] at hw'; injection hw' with hw'; subst hw'; rfl
    | noAttribute g' _ c' hf' hw' =>
      have := conv g g' c c' okf okf; injection this with this; subst this
      rw [hf] at hf'; injection hf' with hf'; subst hf'
      rw [hw] at hw'; injection hw' with hw'; subst hw'; cases hc
  | noAttribute g hv c hf hw =>
    cases h' with
    | absent h => exact absn h g hv
    | unconverted g' _ c' hc' => cases conv g g' c c' okf (caught_fuel hc')
    | unreadable => rfl
    | assigns g' _ c' hf' hw' =>
      have := conv g g' c c' okf okf; injection this with this; subst this
      rw [hf] at hf'; injection hf' with hf'; subst hf'
      rw [hw] at hw'; cases hw'
    | refuses g' _ c' hf' hw' hc' =>
      have := conv g g' c c' okf okf; injection this with this; subst this
      rw [hf] at hf'; injection hf' with hf'; subst hf'
      rw [hw] at hw'; injection hw' with hw'; subst hw'; cases hc'
    | noAttribute => rfl

theorem prepared_det {env : Env} {ctx : Ctx} {c : ClassDef} {inst : Prop} {content raw : Data} {rs rs' : List SetterResult} {d d' x x' : Data}
    (h : Prepared env ctx c inst content raw rs d x) (h' : Prepared env ctx c inst content raw rs' d' x') : rs' = rs ∧ d' = d ∧ x' = x := by
  have hrs : rs' = rs := by
    have key : ∀ {fds : List FieldDef} {rs rs'}, All2 (SetterActs env ctx raw) fds rs → All2 (SetterActs env ctx raw) fds rs' → rs' = rs := by
      intro fds rs rs' h
      induction h generalizing rs' with
      | nil => intro h'; cases h'; rfl
      | cons a _ ih => intro h'; cases h' with | cons a' b' => rw [acts_det a a', ih b']
    exact key h.acts h'.acts
  subst hrs
  have hd : d' = d := by rw [h.after, h'.after]
  subst hd
  refine ⟨rfl, rfl, ?_⟩
  by_cases hi : inst
  · rw [h.completed hi, h'.completed hi]
  · rw [h.unchanged hi, h'.unchanged hi]

/-- The engine runs the setters. -/
theorem runSetters_acts {env : Env} {n : Nat} {ctx : Ctx} {raw : Data} {onInst : Bool} {fds : List FieldDef} (hs : ∀ fd ∈ fds, fd.fset.isSome = true)
    {es es' : Errs} {d d' : Data} (h : runSetters (fieldConv env n) ctx raw onInst fds es d = .ok (es', d')) :
    ∃ rs, All2 (SetterActs env ctx raw) fds rs ∧ es' = setterErrors fds rs es ∧ d' = if onInst then afterSetters d rs else d := by
  induction fds generalizing es d with
  | nil => cases h; exact ⟨[], .nil, rfl, by cases onInst <;> rfl⟩
  | cons fd fds ih =>
    obtain ⟨f, hf⟩ := Option.isSome_iff_exists.1 (hs fd (by simp))
    have hs' : ∀ fd ∈ fds, fd.fset.isSome = true := fun fd h => hs fd (by simp [h])
    simp only [runSetters] at h
    rw [hf] at h
    have step : ∀ {r : SetterResult} {es1 : Errs} {d1 : Data}, SetterActs env ctx raw fd r →
        runSetters (fieldConv env n) ctx raw onInst fds es1 d1 = .ok (es', d') →
        (∀ rs, setterErrors fds rs es1 = setterErrors (fd :: fds) (r :: rs) es) →
        (∀ rs, (if onInst then afterSetters d1 rs else d1) = if onInst then afterSetters d (r :: rs) else d) →
        ∃ rs, All2 (SetterActs env ctx raw) (fd :: fds) rs ∧ es' = setterErrors (fd :: fds) rs es ∧ d' = if onInst then afterSetters d rs else d := by
      intro r es1 d1 ha hr h1 h2
      obtain ⟨rs, a, b, c⟩ := ih hs' hr
      exact ⟨r :: rs, .cons ha a, by rw [b, h1], by rw [c, h2]⟩
    by_cases hu : (rawValue raw fd.name).isUndef = true
    · rw [if_pos hu] at h
      refine step (.absent ?_) h (fun _ => rfl) fun _ => (by cases onInst <;> rfl)
      intro v hv
      rw [rawValue_some hv] at hu
      exact (Val.isUndef_iff _).1 hu
    · rw [if_neg hu] at h
      obtain ⟨hv, hne⟩ := rawValue_get hu
      cases hcv : fieldConv env n ctx true fd.field (rawValue raw fd.name) with
      | error e =>
        rw [hcv] at h
        simp only [] at h
        cases hc : e.caught with
        | true =>
          rw [hc] at h
          simp only [if_true] at h
          exact step (.unconverted hv hne hcv hc) h (fun _ => rfl) fun _ => (by cases onInst <;> rfl)
        | false =>
          rw [hc] at h
          simp only [Bool.false_eq_true, if_false] at h
          split at h
          · exact step (.unreadable hv hne hcv) h (fun _ => rfl) fun _ => (by cases onInst <;> rfl)
          · cases h
      | ok w =>
        rw [hcv] at h
        simp only [] at h
        cases hfw : f w with
        | ok asg =>
          rw [hfw] at h
          simp only [] at h
          exact step (.assigns hv hne hcv hf hfw) h (fun _ => rfl) fun _ => (by cases onInst <;> rfl)
        | error e =>
          rw [hfw] at h
          simp only [] at h
          cases hc : e.caught with
          | true =>
            rw [hc] at h
            simp only [if_true] at h
            exact step (.refuses hv hne hcv hf hfw hc) h (fun _ => rfl) fun _ => (by cases onInst <;> rfl)
          | false =>
            rw [hc] at h
            simp only [Bool.false_eq_true, if_false] at h
            split at h
            · exact step (.noAttribute hv hne hcv hf hfw) h (fun _ => rfl) fun _ => (by cases onInst <;> rfl)
            · cases h

theorem runSetters_crash {rec : Rec} {ctx : Ctx} {raw : Data} {onInst : Bool} {fds : List FieldDef} {es : Errs} {d : Data} {e : Exc}
    (h : runSetters rec ctx raw onInst fds es d = .error e) : e.caught = false := by
  induction fds generalizing es d with
  | nil => cases h
  | cons fd fds ih =>
    simp only [runSetters] at h
    split at h
    · exact ih h
    · split at h
      · rename_i e' _
        cases hc : e'.caught with
        | true => rw [hc] at h; exact ih h
        | false =>
          rw [hc] at h
          simp only [Bool.false_eq_true, if_false] at h
          split at h
          · exact ih h
          · injection h with h; subst h; exact hc
      · split at h
        · exact ih h
        · rename_i e' _
          cases hc : e'.caught with
          | true => rw [hc] at h; exact ih h
          | false =>
            rw [hc] at h
            simp only [Bool.false_eq_true, if_false] at h
            split at h
            · exact ih h
            · injection h with h; subst h; exact hc

/-- The errors of one model: those of the setters, replaced by those of the loop, replaced by the reports of its methods if they are called. -/
def Level (env : Env) (n : Nat) (ctx : Ctx) (c : ClassDef) (content raw : Data) (meth : Prop) {α : Type} (r : R α) : Prop :=
  ∃ rs content' raw', Prepared env ctx c meth content raw rs content' raw' ∧
  NoCrash (importBody (fieldConv env n) env ctx c raw' []) ∧ (∀ t, ¬ Rep r [] t) ∧
  ∀ k p t, Rep r (k :: p) t ↔
    (∃ fd u, k = .str fd.extName ∧ meth ∧ Objects env ctx c content' raw' fd u ∧ At u p t) ∨
    ((meth → ∀ fd u, Objects env ctx c content' raw' fd u → k ≠ .str fd.extName) ∧
      (Rep (importBody (fieldConv env n) env ctx c raw' []) (k :: p) t ∨
       (Dict.get? (errorsOf (importBody (fieldConv env n) env ctx c raw' [])) k = none ∧
        ∃ fd u, (fd, SetterResult.refuses u) ∈ (settables c).zip rs ∧ k = .str fd.extName ∧ At u p t)))

theorem rep_cast {α β : Type} {e : Exc} {p : List Key} {t : ErrTree} : Rep (.error e : R α) p t ↔ Rep (.error e : R β) p t := by
  constructor <;> (rintro ⟨e', h, hh⟩; injection h with h; subst h; exact ⟨_, rfl, hh⟩)

theorem level_congr {env : Env} {n : Nat} {ctx : Ctx} {c : ClassDef} {content raw : Data} {meth : Prop} {α β : Type} {r : R α} {r' : R β}
    (h : ∀ p t, Rep r' p t ↔ Rep r p t) (hl : Level env n ctx c content raw meth r) : Level env n ctx c content raw meth r' := by
  obtain ⟨rs, x, y, h1, h2, h3, h4⟩ := hl
  exact ⟨rs, x, y, h1, h2, fun t h' => h3 t ((h [] t).1 h'), fun k p t => (h _ _).trans (h4 k p t)⟩

theorem rep_data {r : R Data} (hd : ∀ e, r = .error e → ∃ es d, e = .data es d) {k : Key} {p : List Key} {t : ErrTree} :
    Rep r (k :: p) t ↔ ∃ u, Dict.get? (errorsOf r) k = some u ∧ At u p t := by
  cases r with
  | ok d =>
    refine ⟨fun h => absurd h rep_ok, ?_⟩
    rintro ⟨u, h, _⟩; cases h
  | error e =>
    obtain ⟨es, d, rfl⟩ := hd e rfl
    constructor
    · rintro ⟨e, h1, h2⟩
      injection h1 with h1; subst h1
      obtain ⟨k', q, u, h3, h4, h5⟩ := at_node.1 h2
      injection h3 with h3 h3'; subst h3 h3'
      exact ⟨u, h4, h5⟩
    · rintro ⟨u, h1, h2⟩; exact ⟨_, rfl, .down h1 h2⟩

theorem body_data {rec : Rec} {env : Env} {ctx : Ctx} {c : ClassDef} {raw : Data} {es0 : Errs} (hn : NoCrash (importBody rec env ctx c raw es0))
    {e : Exc} (he : importBody rec env ctx c raw es0 = .error e) : ∃ es d, e = .data es d := by
  rcases importBody_plain he with h | h
  · rw [hn e he] at h; cases h
  · exact h

/-- The loop after the setters, compared to the loop alone. -/
theorem body_setters {env : Env} {n : Nat} {ctx : Ctx} {c : ClassDef} (hc : c.WF) (hx : DistinctExt c) {raw : Data} {rs : List SetterResult}
    (hlen : (settables c).length = rs.length) (hn : NoCrash (importBody (fieldConv env n) env ctx c raw (setterErrors (settables c) rs []))) :
    NoCrash (importBody (fieldConv env n) env ctx c raw []) ∧
    (∀ d, EndsWith (importBody (fieldConv env n) env ctx c raw (setterErrors (settables c) rs [])) d → EndsWith (importBody (fieldConv env n) env ctx c raw []) d) ∧
    ∀ k p t, Rep (importBody (fieldConv env n) env ctx c raw (setterErrors (settables c) rs [])) (k :: p) t ↔
      (Rep (importBody (fieldConv env n) env ctx c raw []) (k :: p) t ∨
       (Dict.get? (errorsOf (importBody (fieldConv env n) env ctx c raw [])) k = none ∧
        ∃ fd u, (fd, SetterResult.refuses u) ∈ (settables c).zip rs ∧ k = .str fd.extName ∧ At u p t)) := by
  obtain ⟨h1, h2, h3⟩ := importBody_split (fieldConv env n) env ctx c hc raw (setterErrors (settables c) rs [])
  have hncr : ∀ r : R Data, NoCrash r → (∀ e, r = .error e → ∃ es d, e = .data es d) → ¬ Crashed r := by
    rintro r _ hr ⟨e, he, h⟩
    obtain ⟨es, d, rfl⟩ := hr e he
    exact h _ _ rfl
  have hcr := hncr _ hn fun e he => body_data hn he
  obtain ⟨h4, h5⟩ := h3 hcr
  have hn0 : NoCrash (importBody (fieldConv env n) env ctx c raw []) := by
    intro e he
    refine Classical.byContradiction fun hcc => ?_
    have hcr0 : Crashed (importBody (fieldConv env n) env ctx c raw []) := by
      refine ⟨e, he, ?_⟩
      rintro es p rfl; exact hcc rfl
    have := h2 hcr0
    rw [this] at hn
    exact hcc (hn e he)
  refine ⟨hn0, ?_, fun k p t => ?_⟩
  · intro d hd
    have hdata : ∀ (r : R Data) d, EndsWith r d → dataOf r = d := by
      rintro r d (rfl | ⟨es, rfl⟩) <;> rfl
    have hd0 := (hdata _ _ hd).symm.trans h4
    cases hb : importBody (fieldConv env n) env ctx c raw [] with
    | ok d0 => rw [hb] at hd0; rw [hd0]; exact Or.inl rfl
    | error e =>
      obtain ⟨es, d0, rfl⟩ := body_data hn0 hb
      rw [hb] at hd0; rw [hd0]; exact Or.inr ⟨es, rfl⟩
  · rw [rep_data fun e he => body_data hn he, rep_data fun e he => body_data hn0 he]
    have hset := setterErrors_get (settables c) rs hlen (settable_distinct hx) [] (fun fd _ => rfl) k
    simp only [h5]
    cases hk : Dict.get? (errorsOf (importBody (fieldConv env n) env ctx c raw [])) k with
    | some u0 =>
      simp only [Option.some_or, reduceCtorEq, false_and, or_false]
    | none =>
      simp only [Option.none_or, reduceCtorEq, false_and, exists_false, true_and, false_or]
      constructor
      · rintro ⟨u, a, b⟩
        rcases (hset u).1 a with ⟨fd, a1, a2⟩ | a
        · exact ⟨fd, u, a1, a2, b⟩
        · cases a
      · rintro ⟨fd, u, a1, a2, b⟩
        exact ⟨u, (hset u).2 (Or.inl ⟨fd, a1, a2⟩), b⟩

theorem settables_some {c : ClassDef} : ∀ fd ∈ settables c, fd.fset.isSome = true := by
  intro fd h; unfold settables at h; exact (List.mem_filter.1 h).2

theorem validateFn_level {env : Env} {n : Nat} {ctx : Ctx} {c : ClassDef} (hc : c.WF) (hx : DistinctExt c) (hp : PlainMethods c) {raw content : Data}
    {meth : Prop} (hmeth : meth) (hn : NoCrash (validateFn (fieldConv env n) env ctx c (.inst content) raw)) :
    Level env n ctx c content raw meth (validateFn (fieldConv env n) env ctx c (.inst content) raw) := by
  cases hm : runMutate (fieldConv env n) ctx c (.inst content) raw with
  | error e =>
    exfalso
    have hcc : e.caught = true := hn e (by unfold validateFn; rw [hm])
    unfold runMutate at hm
    simp only [] at hm
    split at hm
    · rename_i e' he'
      injection hm with hm; subst hm
      rw [runSetters_crash he'] at hcc; cases hcc
    · cases hm
  | ok m =>
    obtain ⟨rs, hprep, herrs, hdat⟩ : ∃ rs, Prepared env ctx c meth content raw rs m.data m.raw ∧ m.errs = setterErrors (settables c) rs [] ∧
        (settables c).length = rs.length := by
      unfold runMutate at hm
      simp only [] at hm
      split at hm
      · cases hm
      · rename_i es d' hs
        injection hm with hm; subst hm
        obtain ⟨rs, h1, h2, h3⟩ := runSetters_acts settables_some hs
        exact ⟨rs, ⟨h1, h3, fun _ => rfl, fun h => absurd hmeth h⟩, h2, all2_length h1⟩
    obtain ⟨h1, _, d, qs, h2, h3, h4, h5⟩ := validateFn_reports hx hp hm hn
    rw [herrs] at h1 h2 h5
    obtain ⟨g1, g2, g3⟩ := body_setters hc hx hdat h1
    refine ⟨rs, m.data, m.raw, hprep, g1, h4, fun k p t => ?_⟩
    rw [h5]
    simp only [objects_iff (g2 d h2) h3, g3]
    constructor
    · rintro (⟨fd, u, a, b, e⟩ | ⟨a, b⟩)
      · exact Or.inl ⟨fd, u, b, hmeth, a, e⟩
      · exact Or.inr ⟨fun _ => a, b⟩
    · rintro (⟨fd, u, b, _, a, e⟩ | ⟨a, b⟩)
      · exact Or.inl ⟨fd, u, a, b, e⟩
      · exact Or.inr ⟨a hmeth, b⟩

theorem newInstance_level {env : Env} {n : Nat} {ctx : Ctx} (hv : ctx.validate = true) {c : ClassDef} (hc : c.WF) (hx : DistinctExt c) (hp : PlainMethods c)
    {raw : Data} {meth : Prop} (hmeth : meth)
    (hn : NoCrash (newInstance (fieldConv env n) env ctx c raw)) :
    Level env n ctx c [] raw meth (newInstance (fieldConv env n) env ctx c raw) := by
  have hw : ∀ p t, Rep (newInstance (fieldConv env n) env ctx c raw) p t ↔ Rep (validateFn (fieldConv env n) env ctx c (.inst []) raw) p t := by
    intro p t
    unfold newInstance
    rw [hv]
    simp only [if_true]
    cases validateFn (fieldConv env n) env ctx c (.inst []) raw with
    | error e => exact rep_cast
    | ok d => exact ⟨fun h => absurd h rep_ok, fun h => absurd h rep_ok⟩
  refine level_congr hw (validateFn_level hc hx hp hmeth fun e he => hn e ?_)
  unfold newInstance
  rw [hv]
  simp only [if_true]
  rw [he]

theorem modelInto_level {env : Env} {n : Nat} {ctx : Ctx} (hv : ctx.validate = true) {c : ClassDef} (hwf : c.WF) (hx : DistinctExt c) (hp : PlainMethods c)
    {raw : Data} {bi : Bool} {cls : String}
    (hnc : NoCrash (modelInto (fieldConv env n) env ctx c raw bi)) :
    Level env n ctx c [] raw (Methods ctx (.model cls)) (modelInto (fieldConv env n) env ctx c raw bi) := by
  unfold modelInto at hnc ⊢
  split at hnc
  · rename_i hc
    rw [if_pos hc]
    exact newInstance_level hv hwf hx hp (by simpa [Methods] using hc) hnc
  · rename_i hc
    rw [if_neg hc]
    have hno : ¬ Methods ctx (.model cls) := by simpa [Methods] using hc
    have hrep : ∀ p t, Rep (match importLoop (fieldConv env n) env ctx c (.same bi) raw with
        | .error e => (.error e : R Val)
        | .ok d => .ok (.dict d)) p t ↔ Rep (importLoop (fieldConv env n) env ctx c (.same bi) raw) p t := by
      intro p t
      cases importLoop (fieldConv env n) env ctx c (.same bi) raw with
      | error e => exact rep_cast
      | ok d => exact ⟨fun h => absurd h rep_ok, fun h => absurd h rep_ok⟩
    refine level_congr hrep ?_
    have hb : NoCrash (importLoop (fieldConv env n) env ctx c (.same bi) raw) := fun e he => hnc e (by rw [he])
    clear hnc hrep
    unfold importLoop at hb ⊢
    rw [hv] at hb ⊢
    simp only [if_true] at hb ⊢
    cases hm : runMutate (fieldConv env n) ctx c (.same bi) raw with
    | error e =>
      exfalso
      rw [hm] at hb
      have hcc := hb _ rfl
      unfold runMutate at hm
      simp only [] at hm
      split at hm
      · rename_i e' he'
        injection hm with hm; subst hm
        rw [runSetters_crash he'] at hcc; cases hcc
      · split at hm
        · injection hm with hm; subst hm; cases hcc
        · cases hm
    | ok m =>
      rw [hm] at hb
      simp only [] at hb ⊢
      obtain ⟨rs, hprep, herrs, hlen⟩ : ∃ rs, Prepared env ctx c (Methods ctx (.model cls)) [] raw rs (afterSetters [] rs) m.raw ∧
          m.errs = setterErrors (settables c) rs [] ∧ (settables c).length = rs.length := by
        unfold runMutate at hm
        simp only [] at hm
        split at hm
        · cases hm
        · rename_i es d' hs
          split at hm
          · cases hm
          · injection hm with hm; subst hm
            obtain ⟨rs, h1, h2, _⟩ := runSetters_acts settables_some hs
            exact ⟨rs, ⟨h1, rfl, fun h => absurd h hno, fun _ => rfl⟩, h2, all2_length h1⟩
      rw [herrs] at hb ⊢
      obtain ⟨g1, g2, g3⟩ := body_setters hwf hx hlen hb
      refine ⟨rs, _, m.raw, hprep, g1, fun t => ?_, fun k p t => ?_⟩
      · rintro ⟨e, he, hat⟩
        obtain ⟨es, d, rfl⟩ := body_data hb he
        obtain ⟨_, _, _, h, _⟩ := at_node.1 hat
        cases h
      · rw [g3]
        constructor
        · exact fun h => Or.inr ⟨fun h => absurd h hno, h⟩
        · rintro (⟨_, _, _, h, _⟩ | ⟨_, h⟩)
          · exact absurd h hno
          · exact h

theorem ext_unique {c : ClassDef} (hx : DistinctExt c) {fd fd' : FieldDef} (h : fd ∈ c.fields) (h' : fd' ∈ c.fields)
    (he : fd.extName = fd'.extName) : fd = fd' := by
  unfold DistinctExt at hx
  generalize c.fields = fs at *
  induction fs with
  | nil => cases h
  | cons y ys ih =>
    simp only [List.map_cons, List.nodup_cons] at hx
    rcases List.mem_cons.1 h with rfl | a <;> rcases List.mem_cons.1 h' with rfl | b
    · rfl
    · exact absurd (List.mem_map.2 ⟨fd', b, he.symm⟩) hx.1
    · exact absurd (List.mem_map.2 ⟨fd, a, he⟩) hx.1
    · exact ih hx.2 a b

theorem loop_all {ctx : Ctx} (hv : ctx.validate = true) {c : ClassDef} (fd : FieldDef) : fd ∈ c.loopFields ctx ↔ fd ∈ c.fields ∧ True := by
  unfold ClassDef.loopFields
  rw [hv]
  simp

theorem zip_mem {c : ClassDef} {fd : FieldDef} {r : SetterResult} {rs : List SetterResult} (h : (fd, r) ∈ (settables c).zip rs) : fd ∈ c.fields := by
  have := (List.of_mem_zip h).1
  unfold settables at this
  exact (List.mem_filter.1 this).1

/-- The problems of one model, given those of its fields. -/
theorem level_problems {env : Env} {n : Nat} {ctx : Ctx} (hv : ctx.validate = true) {c : ClassDef} {content raw : Data} {meth : Prop} {α : Type} {r : R α}
    (hl : Level env n ctx c content raw meth r) (hwf : c.WF) (hx : DistinctExt c)
    (hih : ∀ rs content' raw', Prepared env ctx c meth content raw rs content' raw' → ∀ fd ∈ c.fields, Looked ctx raw' fd →
      NoCrash (fieldConv env n (innerCtx env ctx fd) true fd.field (fillValue ctx fd (inputValue raw' ctx.mapping fd))) → ∀ q u,
      (Rep (fieldConv env n (innerCtx env ctx fd) true fd.field (fillValue ctx fd (inputValue raw' ctx.mapping fd))) q u ↔
        VProblem env (innerCtx env ctx fd) true fd.field (fillValue ctx fd (inputValue raw' ctx.mapping fd)) q u))
    (k : Key) (p : List Key) (t : ErrTree) :
    Rep r (k :: p) t ↔ ∃ rs content' raw', Prepared env ctx c meth content raw rs content' raw' ∧
      ((∃ fd u, k = .str fd.extName ∧ meth ∧ Objects env ctx c content' raw' fd u ∧ At u p t) ∨
      (∃ fd ∈ c.fields, k = .str fd.extName ∧ Looked ctx raw' fd ∧ (meth → ∀ u, ¬ Objects env ctx c content' raw' fd u) ∧
        VProblem env (innerCtx env ctx fd) true fd.field (fillValue ctx fd (inputValue raw' ctx.mapping fd)) p t) ∨
      (∃ fd u, k = .str fd.extName ∧ (fd, SetterResult.refuses u) ∈ (settables c).zip rs ∧ Goes env ctx raw' fd ∧
        (meth → ∀ u, ¬ Objects env ctx c content' raw' fd u) ∧ At u p t) ∨
      (Rogue ctx c raw k ∧ p = [] ∧ t = .rogue)) := by
  obtain ⟨rs, content', raw', hprep, hnc, _, h⟩ := hl
  have hrog : ∀ k, Rogue ctx c raw' k ↔ Rogue ctx c raw k := by
    intro k
    by_cases hm : meth
    · rw [hprep.completed hm]; exact rogue_completed _ k
    · rw [hprep.unchanged hm]
  have hlp := fun fd => loop_all hv (c := c) fd
  have hone : ∀ {fd fd' : FieldDef} {u}, fd ∈ c.fields → Objects env ctx c content' raw' fd' u → fd.extName = fd'.extName → fd' = fd :=
    fun h ho he => (ext_unique hx h (objects_mem ho) he).symm
  have hgoes : ∀ {fd}, fd ∈ c.fields → (Dict.get? (errorsOf (importBody (fieldConv env n) env ctx c raw' [])) (.str fd.extName) = none ↔ Goes env ctx raw' fd) := by
    intro fd hfd
    rw [importBody_entry hwf hx hlp hnc hfd trivial]
    unfold Goes
    by_cases hl : Looked ctx raw' fd
    · have hnf := importBody_noCrash hwf hlp hnc hfd trivial hl
      constructor
      · rintro (h | ⟨w, h⟩)
        · exact Or.inl h
        · exact Or.inr ⟨n, w, h⟩
      · rintro (h | ⟨m, w, h⟩)
        · exact Or.inl h
        · refine Or.inr ⟨w, ?_⟩
          refine (fieldConv_det h rfl (fun h => (by cases h)) ?_)
          intro hf
          have := hnf _ hf
          cases this
    · exact ⟨fun _ => Or.inl hl, fun _ => Or.inl hl⟩
  have hcore : Rep r (k :: p) t ↔
      ((∃ fd u, k = .str fd.extName ∧ meth ∧ Objects env ctx c content' raw' fd u ∧ At u p t) ∨
      (∃ fd ∈ c.fields, k = .str fd.extName ∧ Looked ctx raw' fd ∧ (meth → ∀ u, ¬ Objects env ctx c content' raw' fd u) ∧
        VProblem env (innerCtx env ctx fd) true fd.field (fillValue ctx fd (inputValue raw' ctx.mapping fd)) p t) ∨
      (∃ fd u, k = .str fd.extName ∧ (fd, SetterResult.refuses u) ∈ (settables c).zip rs ∧ Goes env ctx raw' fd ∧
        (meth → ∀ u, ¬ Objects env ctx c content' raw' fd u) ∧ At u p t) ∨
      (Rogue ctx c raw k ∧ p = [] ∧ t = .rogue)) := by
    rw [h, importBody_paths hwf hx hlp hnc]
    refine or_congr Iff.rfl ?_
    constructor
    · rintro ⟨hm, (⟨fd, a, _, rfl, c', d, e⟩ | ⟨a, hr⟩) | ⟨hno, fd, u, a, rfl, e⟩⟩
      · exact Or.inl ⟨fd, a, rfl, c', fun hmt u ho => hm hmt fd u ho rfl, (hih _ _ _ hprep fd a c' d p t).1 e⟩
      · exact Or.inr (Or.inr ⟨(hrog k).1 a, hr⟩)
      · exact Or.inr (Or.inl ⟨fd, u, rfl, a, (hgoes (zip_mem a)).1 hno, fun hmt w ho => hm hmt fd w ho rfl, e⟩)
    · rintro (⟨fd, a, rfl, c', hm, e⟩ | ⟨fd, u, rfl, a, hg, hm, e⟩ | ⟨a, hr⟩)
      · have hnf := importBody_noCrash hwf hlp hnc a trivial c'
        refine ⟨fun hmt fd' u ho hk => ?_, Or.inl (Or.inl ⟨fd, a, trivial, rfl, c', hnf, (hih _ _ _ hprep fd a c' hnf p t).2 e⟩)⟩
        injection hk with hk
        obtain rfl := hone a ho hk
        exact hm hmt u ho
      · refine ⟨fun hmt fd' w ho hk => ?_, Or.inr ⟨(hgoes (zip_mem a)).2 hg, fd, u, a, rfl, e⟩⟩
        injection hk with hk
        obtain rfl := hone (zip_mem a) ho hk
        exact hm hmt w ho
      · refine ⟨fun _ fd u ho hk => ?_, Or.inl (Or.inr ⟨(hrog k).2 a, hr⟩)⟩
        subst hk
        exact a.2.2 (extName_accepted (objects_mem ho))
  rw [hcore]
  constructor
  · intro h'; exact ⟨rs, content', raw', hprep, h'⟩
  · rintro ⟨rs2, c2, r2, hp2, h'⟩
    obtain ⟨rfl, rfl, rfl⟩ := prepared_det hprep hp2
    exact h'

theorem tidy_view {env : Env} {c : ClassDef} (hg : ∀ fd ∈ c.fields, ∀ g d w, fd.fget = some g → (∀ kv ∈ d, Tidy env kv.2) → g d = some w → Tidy env w) {d : Data}
    (hd : ∀ kv ∈ d, Tidy env kv.2) : ∀ kv ∈ c.view d, Tidy env kv.2 := by
  intro kv h
  unfold ClassDef.view at h
  obtain ⟨fd, h1, h2⟩ := List.mem_filterMap.1 h
  split at h2
  · cases h2
  · split at h2
    · cases h2
    · rename_i v hv
      cases hfg : fd.fget with
      | none => rw [hfg] at h2; cases h2; exact hd _ (Dict.mem_of_get? hv)
      | some g =>
        rw [hfg] at h2
        obtain ⟨w, hw, h3⟩ := Option.map_eq_some_iff.1 h2
        subst h3
        exact hg fd h1 g d w hfg hd hw

theorem entry_of_set {d : Data} {k : Key} {v : Val} {kv : Key × Val} (h : kv ∈ Dict.set d k v) : kv ∈ d ∨ kv = (k, v) := by
  induction d with
  | nil => simp [Dict.set] at h; exact Or.inr h
  | cons x d ih =>
    obtain ⟨k', v'⟩ := x
    unfold Dict.set at h
    split at h
    · rcases List.mem_cons.1 h with h | h
      · rename_i hk _
        exact Or.inr (by rw [h, hk])
      · exact Or.inl (by simp [h])
    · rcases List.mem_cons.1 h with h | h
      · exact Or.inl (by simp [h])
      · rcases ih h with h | h
        · exact Or.inl (by simp [h])
        · exact Or.inr h

theorem tidy_update {env : Env} {a b : Data} (ha : ∀ kv ∈ a, Tidy env kv.2) (hb : ∀ kv ∈ b, Tidy env kv.2) : ∀ kv ∈ a.update b, Tidy env kv.2 := by
  induction b generalizing a with
  | nil => exact ha
  | cons x b ih =>
    rw [show a.update (x :: b) = (a.set x.1 x.2).update b from rfl]
    refine ih ?_ fun kv h => hb kv (by simp [h])
    intro kv h
    rcases entry_of_set h with h | h
    · exact ha kv h
    · rw [h]; exact hb x (by simp)

theorem tidy_prepared {env : Env} {ctx : Ctx} {c : ClassDef} (hc : c.ProperV env) {inst : Prop} {content raw : Data} {rs : List SetterResult} {content' raw' : Data}
    (h : Prepared env ctx c inst content raw rs content' raw') (hr : ∀ kv ∈ raw, Tidy env kv.2) (hd : ∀ kv ∈ content, Tidy env kv.2) :
    ∀ kv ∈ raw', Tidy env kv.2 := by
  by_cases hi : inst
  · rw [h.completed hi]
    refine tidy_update hr (tidy_view (fun fd hfd => (hc.2.2.2 fd hfd).2.1) ?_)
    rw [h.after]
    have key : ∀ {fds : List FieldDef} {rs}, (∀ fd ∈ fds, fd ∈ c.fields) → All2 (SetterActs env ctx raw) fds rs → ∀ {d : Data}, (∀ kv ∈ d, Tidy env kv.2) →
        ∀ kv ∈ afterSetters d rs, Tidy env kv.2 := by
      intro fds rs hf ha
      induction ha with
      | nil => intro d hd; exact hd
      | @cons fd r fds rs a _ ih =>
        have hf' : ∀ fd ∈ fds, fd ∈ c.fields := fun fd h => hf fd (by simp [h])
        intro d hd
        cases a with
        | assigns h0 _ hcv h1 h2 =>
          simp only [afterSetters]
          exact ih hf' (tidy_update hd ((hc.2.2.2 fd (hf fd (by simp))).1 _ _ _ _ _ _ h1 (hr _ (Dict.mem_of_get? h0)) hcv h2))
        | _ => exact ih hf' hd
    exact key (fun fd h => (List.mem_filter.1 h).1) h.acts hd
  · rw [h.unchanged hi]; exact hr

/-- One level: the conversion of a value, given the problems of the values below. -/
theorem convertV_paths {env : Env} (henv : env.ProperV) {n : Nat}
    (ih : ∀ (ctx : Ctx) (named : Bool) (f : Field) (v : Val),
      ctx.conv = .val → ctx.validate = true → f.HonestV → Tidy env v → NoCrash (fieldConv env n ctx named f v) →
      ∀ p t, Rep (fieldConv env n ctx named f v) p t ↔ VProblem env ctx named f v p t)
    {ctx : Ctx} (hi : ctx.conv = .val) (hv : ctx.validate = true) {f : Field} (hf : f.HonestV)
    (hcv : ctx.convert = true ∨ f.ty.isCompound = true) {v : Val} (hne : v.isEmpty = false) (ht : Tidy env v)
    (hn : NoCrash (convertF (fieldConv env n) env ctx f v)) (p : List Key) (t : ErrTree) :
    Rep (convertF (fieldConv env n) env ctx f v) p t ↔ VInside env ctx f v p t := by
  -- nested models
  have hmod : ∀ ty o c raw (r : R Val), Level env n ctx c [] raw (Methods ctx ty) r → f = .mk ty o → VOpens env ty v c raw →
      (∃ k, env.cls k = some c) → (∀ kv ∈ raw, Tidy env kv.2) →
      (∀ c' raw', VOpens env ty v c' raw' → c' = c ∧ raw' = raw) → (∀ l, ty ≠ .leaf l) →
      (∀ m, (∀ p, ty ≠ .poly p) → ¬ Unusable env ty v m) →
      (∀ i mn mx, ty ≠ .list i mn mx) → (∀ i co, ty ≠ .dict i co) →
      (Rep r p t ↔ VInside env ctx f v p t) := by
    rintro ty o c raw r hl rfl hop ⟨k, hcls⟩ htd huniq hnl hnu hnli hndi
    obtain ⟨hwf, hext, hnv, hflds⟩ := henv k c hcls
    have hsub : ∀ fd, (innerCtx env ctx fd).conv = .val ∧ (innerCtx env ctx fd).validate = true := by
      intro fd; unfold innerCtx; split <;> exact ⟨hi, hv⟩
    cases p with
    | nil =>
      constructor
      · intro h; exact absurd h (hl.choose_spec.choose_spec.choose_spec.2.2.1 _)
      · intro h
        cases h with
        | scalar => exact absurd rfl (hnl _)
        | unusable hp hu => exact absurd hu (hnu _ hp)
    | cons k p =>
      rw [level_problems hv hl hwf hext fun rs content' raw' hpr fd hfd hl hnf q u =>
        ih _ true fd.field _ (hsub fd).1 (hsub fd).2 (hflds fd hfd).2.2.1
          (tidy_input (tidy_prepared (henv _ c hcls) hpr htd (by intro kv h; cases h)) ctx _ fd (hflds fd hfd).2.2.2) hnf q u]
      constructor
      · rintro ⟨rs, content', raw', hpr, (⟨fd, u, rfl, a, b, e⟩ | ⟨fd, a, rfl, b, c', e⟩ | ⟨fd, u, rfl, a, b, c', e⟩ | ⟨a, rfl, rfl⟩)⟩
        · exact .method hop a hpr b e
        · exact .field hop hpr a b c' e
        · exact .setter hop hpr a b c' e
        · exact .rogue hop a
      · intro h
        cases h with
        | item => exact absurd rfl (hnli _ _ _)
        | entry => exact absurd rfl (hndi _ _)
        | field ho hpr a b c' e =>
          obtain ⟨rfl, rfl⟩ := huniq _ _ ho
          exact ⟨_, _, _, hpr, Or.inr (Or.inl ⟨_, a, rfl, b, c', e⟩)⟩
        | setter ho hpr a b c' e =>
          obtain ⟨rfl, rfl⟩ := huniq _ _ ho
          exact ⟨_, _, _, hpr, Or.inr (Or.inr (Or.inl ⟨_, _, rfl, a, b, c', e⟩))⟩
        | method ho a hpr b e =>
          obtain ⟨rfl, rfl⟩ := huniq _ _ ho
          exact ⟨_, _, _, hpr, Or.inl ⟨_, _, rfl, a, b, e⟩⟩
        | rogue ho a =>
          obtain ⟨rfl, rfl⟩ := huniq _ _ ho
          obtain ⟨rs, content', raw', hpr, _⟩ := hl
          exact ⟨rs, content', raw', hpr, Or.inr (Or.inr (Or.inr ⟨a, rfl, rfl⟩))⟩
  have hunus : ∀ {ty o m}, f = .mk ty o → (∀ l, ty ≠ .leaf l) → (∀ p, ty ≠ .poly p) →
      Unusable env ty v m → (∀ m', Unusable env ty v m' → m' = m) → (∀ c raw, ¬ VOpens env ty v c raw) →
      (∀ inner mn mx xs, ty = .list inner mn mx → coerceList env v ≠ some xs) →
      (∀ inner co kvs, ty = .dict inner co → v ≠ .dict kvs) →
      (Rep (convErr m : R Val) p t ↔ VInside env ctx f v p t) := by
    rintro ty o m rfl hnl hnp hu huu hno hl hd
    constructor
    · rintro ⟨e, h1, h2⟩
      injection h1 with h1; subst h1
      obtain ⟨rfl, rfl⟩ := at_leaf.1 h2
      exact .unusable hnp hu
    · intro h
      cases h with
      | scalar => exact absurd rfl (hnl _)
      | unusable _ hu' => obtain rfl := huu _ hu'; exact ⟨_, rfl, at_leaf.2 ⟨rfl, rfl⟩⟩
      | item a _ _ => exact absurd a (hl _ _ _ _ rfl)
      | entry _ _ => exact absurd rfl (hd _ _ _ rfl)
      | field a => exact absurd a (hno _ _)
      | method a => exact absurd a (hno _ _)
      | setter a => exact absurd a (hno _ _)
      | rogue a => exact absurd a (hno _ _)
  obtain ⟨ty, o⟩ := f
  cases ty with
  | leaf l =>
    simp only [convertF, Field.ty_mk] at hn ⊢
    have hcv : ctx.convert = true := by
      rcases hcv with h | h
      · exact h
      · cases h
    constructor
    · rintro ⟨e, h1, h2⟩
      obtain ⟨k, ms, rfl⟩ := hf.1.1 _ _ _ h1 (hn _ h1)
      obtain ⟨rfl, rfl⟩ := at_leaf.1 h2
      exact .scalar hcv h1
    · intro h
      cases h with
      | scalar _ h => exact ⟨_, h, at_leaf.2 ⟨rfl, rfl⟩⟩
      | unusable _ h => cases h
      | field h => cases h
      | method h => cases h
      | setter h => cases h
      | rogue h => cases h
  | list inner mn mx =>
    simp only [convertF, Field.ty_mk] at hn ⊢
    cases hxs : coerceList env v with
    | none =>
      simp only [hxs] at hn ⊢
      exact hunus rfl (by simp) (by simp) (.list hxs) (by intro m h; cases h; rfl) (by intro c raw h; cases h)
        (by intro _ _ _ _ _ h; rw [hxs] at h; cases h) (by intro _ _ _ h; cases h)
    | some xs =>
      simp only [hxs] at hn ⊢
      have hti : ∀ x ∈ xs, Tidy env x := by
        intro x hx
        have hkey : ∀ k : Key, Tidy env (match k with | .str s => Val.str s | .int i => .int i) := by
          intro k; cases k <;> exact .other (by simp) (by simp) (by simp) (by simp)
        cases ht with
        | list h => simp only [coerceList] at hxs; injection hxs with hxs; subst hxs; exact h x hx
        | tuple h => simp only [coerceList] at hxs; injection hxs with hxs; subst hxs; exact h x hx
        | dict => cases hxs
        | inst h =>
          simp only [coerceList] at hxs; injection hxs with hxs; subst hxs
          obtain ⟨b, _, rfl⟩ := List.mem_map.1 hx; exact hkey _
        | other h1 h2 h3 h4 =>
          cases v <;> simp [coerceList] at hxs h1 h2 h3 h4
          subst hxs
          obtain ⟨b, _, rfl⟩ := List.mem_map.1 hx
          exact .other (by simp) (by simp) (by simp) (by simp)
      unfold listConv at hn ⊢
      cases hl : listLoop (fieldConv env n ctx false inner) 0 xs with
      | error e =>
        rw [hl] at hn
        obtain ⟨_, _, _, hc⟩ := listLoop_error hl
        rw [hn e rfl] at hc; cases hc
      | ok ye =>
        obtain ⟨ys, es⟩ := ye
        rw [hl] at hn
        obtain ⟨_, h2, h3, h4, _⟩ := listLoop_ok hl
        simp only [Nat.zero_add] at h2 h3
        have hih : ∀ x ∈ xs, ∀ q u, (Rep (fieldConv env n ctx false inner x) q u ↔ VProblem env ctx false inner x q u) :=
          fun x hx q u => ih ctx false inner x hi hv hf.1 (hti x hx) (fun e he => h4 x hx e he) q u
        have hprob : VInside env ctx (.mk (.list inner mn mx) o) v p t ↔
            ∃ k q u, p = k :: q ∧ Dict.get? es k = some u ∧ At u q t := by
          constructor
          · intro h
            cases h with
            | unusable _ hu => cases hu with | list h => rw [hxs] at h; cases h
            | @item _ _ _ _ _ _ xs' i x q _ a b c =>
              rw [hxs] at a; injection a with a; subst a
              have hmem := List.mem_of_getElem? b
              obtain ⟨e, he, hat⟩ := (hih x hmem q t).2 c
              exact ⟨_, _, _, rfl, h3 i x e b he, hat⟩
            | field h => cases h
            | method h => cases h
            | setter h => cases h
            | rogue h => cases h
          · rintro ⟨k, q, u, rfl, hg, hat⟩
            have hk : k ∈ Dict.keys es := (Dict.get?_isSome _ _).1 (by rw [hg]; rfl)
            obtain ⟨j, x, e, a, rfl, c⟩ := (h2 k).1 hk
            rw [h3 j x e a c] at hg
            injection hg with hg; subst hg
            exact .item hxs a ((hih x (List.mem_of_getElem? a) q t).1 ⟨e, c, hat⟩)
        rw [hprob]
        simp only []
        split
        · rename_i he
          rw [List.isEmpty_iff] at he
          subst he
          exact ⟨fun h => absurd h rep_ok, by rintro ⟨_, _, _, _, h, _⟩; cases h⟩
        · rw [← at_node]
          constructor
          · rintro ⟨e, h, h'⟩; injection h with h; subst h; exact h'
          · intro h; exact ⟨_, rfl, h⟩
  | dict inner co =>
    simp only [convertF, Field.ty_mk] at hn ⊢
    have hnd : v.isDict = false → (Rep (convErr "dict" : R Val) p t ↔ VInside env ctx (.mk (.dict inner co) o) v p t) := by
      intro hd
      exact hunus rfl (by simp) (by simp) (.dict hd) (by intro m h; cases h; rfl) (by intro c raw h; cases h)
        (by intro _ _ _ _ h; cases h) (by rintro _ _ _ _ rfl; cases hd)
    cases v with
    | dict kvs =>
      simp only [] at hn ⊢
      obtain ⟨hnodup, htk⟩ : (kvs.map (·.1)).Nodup ∧ ∀ kv ∈ kvs, Tidy env kv.2 := by
        cases ht with
        | dict a b => exact ⟨a, b⟩
        | other _ _ h _ => exact absurd rfl (h _)
      unfold dictConv at hn ⊢
      cases hl : dictLoop (fieldConv env n ctx false inner) co kvs [] [] with
      | error e =>
        rw [hl] at hn
        obtain ⟨_, _, _, hc⟩ := dictLoop_error hl
        rw [hn e rfl] at hc; cases hc
      | ok de =>
        obtain ⟨d, es⟩ := de
        rw [hl] at hn
        obtain ⟨_, h2, h3, h4, _, _⟩ := dictLoop_spec hl
        have hentry : ∀ k x e, (k, x) ∈ kvs → (convEntry (fieldConv env n ctx false inner) co k x = .error e ↔
            fieldConv env n ctx false inner x = .error e) := by
          intro k x e hkx
          have hcc := h3 (k, x) hkx
          unfold convEntry at hcc ⊢
          cases hfx : fieldConv env n ctx false inner x with
          | error e' => simp
          | ok y =>
            simp only [hfx] at hcc ⊢
            cases hck : co k with
            | ok k' => simp
            | error e' =>
              have h1 := hcc e' (by simp [hck])
              have h2 := hf.1.2 k e' hck
              rw [h1] at h2; cases h2
        have hih : ∀ k x, (k, x) ∈ kvs → ∀ q u, (Rep (fieldConv env n ctx false inner x) q u ↔ VProblem env ctx false inner x q u) :=
          fun k x hx q u => ih ctx false inner x hi hv hf.1.1 (htk _ hx)
            (fun e he => h3 (k, x) hx e ((hentry k x e hx).2 he)) q u
        have hprob : VInside env ctx (.mk (.dict inner co) o) (.dict kvs) p t ↔
            ∃ k q u, p = k :: q ∧ Dict.get? es k = some u ∧ At u q t := by
          constructor
          · intro h
            cases h with
            | unusable _ hu => cases hu with | dict h => cases h
            | @entry _ _ _ _ _ k x q _ a c =>
              obtain ⟨e, he, hat⟩ := (hih k x a q t).2 c
              exact ⟨_, _, _, rfl, h4 hnodup k x e a ((hentry k x e a).2 he), hat⟩
            | field h => cases h
            | method h => cases h
            | setter h => cases h
            | rogue h => cases h
          · rintro ⟨k, q, u, rfl, hg, hat⟩
            have hk : k ∈ Dict.keys es := (Dict.get?_isSome _ _).1 (by rw [hg]; rfl)
            rcases (h2 k).1 hk with hk | ⟨x, e, a, c⟩
            · cases hk
            · rw [h4 hnodup k x e a c] at hg
              injection hg with hg; subst hg
              exact .entry a ((hih k x a q t).1 ⟨e, (hentry k x e a).1 c, hat⟩)
        rw [hprob]
        simp only []
        split
        · rename_i he
          rw [List.isEmpty_iff] at he
          subst he
          exact ⟨fun h => absurd h rep_ok, by rintro ⟨_, _, _, _, h, _⟩; cases h⟩
        · rw [← at_node]
          constructor
          · rintro ⟨e, h, h'⟩; injection h with h; subst h; exact h'
          · intro h; exact ⟨_, rfl, h⟩
    | _ => exact hnd rfl
  | model cls =>
    simp only [convertF, Field.ty_mk] at hn ⊢
    have hno : v.isDict = false → (∀ k d, v ≠ .inst k d) →
        (Rep (convErr "model" : R Val) p t ↔ VInside env ctx (.mk (.model cls) o) v p t) := by
      intro hd hins
      exact hunus rfl (by simp) (by simp) (.model hd hins) (by intro m h; cases h <;> rfl)
        (by intro c raw h; cases h with
            | dict => cases hd
            | inst => exact hins _ _ rfl)
        (by intro _ _ _ _ h; cases h) (by intro _ _ _ h; cases h)
    cases v with
    | dict d =>
      simp only [modelConv] at hn ⊢
      cases hcls : env.cls cls with
      | none => rw [hcls] at hn; have := hn _ rfl; cases this
      | some c =>
        simp only [hcls] at hn ⊢
        obtain ⟨hwfc, hxc, hpm, hflds⟩ := henv _ c hcls
        refine hmod _ _ c d _ (modelInto_level hv hwfc hxc hpm hn) rfl (.dict hcls) ⟨_, hcls⟩ ?_ ?_ (by simp) ?_ (by simp) (by simp)
        · cases ht with
          | dict _ b => exact b
          | other _ _ h _ => exact absurd rfl (h _)
        · intro c' raw' h
          cases h with
          | dict h => rw [hcls] at h; injection h with h; exact ⟨h.symm, rfl⟩
        · intro m _ h; cases h with | model h => cases h
    | inst k d =>
      simp only [modelConv] at hn ⊢
      split at hn
      · rename_i hsub
        rw [if_pos hsub]
        cases hcls : env.cls k with
        | none => rw [hcls] at hn; have := hn _ rfl; cases this
        | some c =>
          simp only [hcls] at hn ⊢
          obtain ⟨hwfc, hxc, hpm, hflds⟩ := henv _ c hcls
          refine hmod _ _ c (c.view d) _ (modelInto_level hv hwfc hxc hpm hn) rfl (.inst hsub hcls) ⟨_, hcls⟩ ?_ ?_ (by simp) ?_ (by simp) (by simp)
          · cases ht with
            | inst h => unfold Env.view at h; rw [hcls] at h; exact h
            | other _ _ _ h => exact absurd rfl (h _ _)
          · intro c' raw' h
            cases h with
            | inst _ h => rw [hcls] at h; injection h with h; exact ⟨h.symm, by rw [h]⟩
          · intro m _ h
            cases h with
            | model _ h => exact absurd rfl (h _ _)
            | inst h => rw [hsub] at h; cases h
      · rename_i hsub
        rw [if_neg hsub]
        exact hunus rfl (by simp) (by simp) (.inst (by simpa using hsub)) (by intro m h; cases h <;> rfl)
          (by intro c raw h; cases h with
              | inst h _ => exact hsub h)
          (by intro _ _ _ _ h; cases h) (by intro _ _ _ h; cases h)
    | _ => exact hno rfl (by simp)
  | poly pp =>
    simp only [convertF, Field.ty_mk] at hn ⊢
    unfold polyConv at hn ⊢
    simp only [hv, Bool.not_true, Bool.false_and, Bool.false_eq_true, if_false] at hn ⊢
    cases hfm : pp.findModel env v with
    | error e =>
      rw [hfm] at hn
      have hcc := hn e rfl
      unfold PolySpec.findModel at hfm
      split at hfm
      · split at hfm
        · cases hfm
        · injection hfm with hfm; subst hfm; cases hcc
      · simp only [] at hfm
        split at hfm
        · cases hfm
        · cases hfm
        · injection hfm with hfm; subst hfm; cases hcc
    | ok k =>
      simp only [hfm] at hn ⊢
      cases hcls : env.cls k with
      | none => rw [hcls] at hn; have := hn _ rfl; cases this
      | some c =>
        simp only [hcls] at hn ⊢
        obtain ⟨hwfc, hxc, hpm, hflds⟩ := henv _ c hcls
        have hnew := fun raw hn => newInstance_level (n := n) (env := env) (raw := raw) (meth := Methods ctx (.poly pp)) hv hwfc hxc hpm trivial hn
        have hfal : v.isDict = false → (∀ k' d, v ≠ .inst k' d) → NoCrash (if v.truthy = true then (.error (.other "TypeError") : R Val) else newInstance (fieldConv env n) env ctx c []) →
            (Rep (if v.truthy = true then (.error (.other "TypeError") : R Val) else newInstance (fieldConv env n) env ctx c []) p t ↔
              VInside env ctx (.mk (.poly pp) o) v p t) := by
          intro hd hni hnn
          cases htr : v.truthy with
          | true => rw [htr] at hnn; have := hnn _ rfl; cases this
          | false =>
            rw [htr] at hnn
            simp only [Bool.false_eq_true, if_false] at hnn ⊢
            refine hmod _ _ c [] _ (hnew [] hnn) rfl (.polyFalsy hd hni htr hfm hcls) ⟨_, hcls⟩
              (by intro kv h; cases h) ?_ (by simp) (fun m h => absurd rfl (h pp)) (by simp) (by simp)
            intro c' raw' h
            cases h with
            | polyDict => cases hd
            | polyInst => exact absurd rfl (hni _ _)
            | polyFalsy _ _ _ h1 h2 =>
              rw [hfm] at h1; injection h1 with h1; subst h1
              rw [hcls] at h2; injection h2 with h2; exact ⟨h2.symm, rfl⟩
        cases v with
        | dict d =>
          simp only [] at hn ⊢
          refine hmod _ _ c d _ (hnew d hn) rfl (.polyDict hfm hcls) ⟨_, hcls⟩ ?_ ?_ (by simp)
            (fun m h => absurd rfl (h pp)) (by simp) (by simp)
          · cases ht with
            | dict _ b => exact b
            | other _ _ h _ => exact absurd rfl (h _)
          · intro c' raw' h
            cases h with
            | polyDict h1 h2 =>
              rw [hfm] at h1; injection h1 with h1; subst h1
              rw [hcls] at h2; injection h2 with h2; exact ⟨h2.symm, rfl⟩
            | polyFalsy hd => cases hd
        | inst k' d =>
          simp only [] at hn ⊢
          refine hmod _ _ c (env.view k' d) _ (hnew _ hn) rfl (.polyInst hfm hcls) ⟨_, hcls⟩ ?_ ?_ (by simp)
            (fun m h => absurd rfl (h pp)) (by simp) (by simp)
          · cases ht with
            | inst h => exact h
            | other _ _ _ h => exact absurd rfl (h _ _)
          · intro c' raw' h
            cases h with
            | polyInst h1 h2 =>
              rw [hfm] at h1; injection h1 with h1; subst h1
              rw [hcls] at h2; injection h2 with h2; exact ⟨h2.symm, rfl⟩
            | polyFalsy _ hni => exact absurd rfl (hni _ _)
        | _ => exact hfal rfl (by simp) hn

theorem validate_paths {env : Env} (henv : env.ProperV) (n : Nat) : ∀ (ctx : Ctx) (named : Bool) (f : Field) (v : Val),
    ctx.conv = .val → ctx.validate = true → f.HonestV → Tidy env v →
    NoCrash (fieldConv env n ctx named f v) →
    ∀ p t, Rep (fieldConv env n ctx named f v) p t ↔ VProblem env ctx named f v p t := by
  induction n with
  | zero =>
    intro ctx named f v _ _ _ _ hn
    have := hn .fuel rfl
    cases this
  | succ n ih =>
    intro ctx named f v hi hv hf ht hn p t
    simp only [fieldConv, fieldConvF] at hn ⊢
    by_cases hemp : v.isEmpty = true
    · have hprob : VProblem env ctx named f v p t ↔ requiredFails ctx named f v = true ∧ p = [] ∧ t = .leaf .conv ["required"] := by
        constructor
        · intro h
          cases h with
          | required h1 h2 h3 =>
            refine ⟨?_, rfl, rfl⟩
            rcases h3 with h3 | h3 <;> simp [requiredFails, h1, h2, h3]
          | own h1 => rw [hemp] at h1; cases h1
          | refused h1 => rw [hemp] at h1; cases h1
          | inside h1 => rw [hemp] at h1; cases h1
        · rintro ⟨h1, rfl, rfl⟩
          simp only [requiredFails, Bool.and_eq_true, Bool.or_eq_true, Bool.not_eq_true'] at h1
          exact .required h1.1.1 h1.1.2 h1.2
      rw [hprob]
      split
      · rename_i hr
        constructor
        · rintro ⟨e, h1, h2⟩
          injection h1 with h1; subst h1
          exact ⟨hr, at_leaf.1 h2⟩
        · intro h; exact ⟨_, rfl, at_leaf.2 h.2⟩
      · rename_i hr
        exact ⟨fun h => absurd h rep_ok, fun h => absurd h.1 hr⟩
    · have hne : v.isEmpty = false := by simpa using hemp
      have hrf : requiredFails ctx named f v = false := by simp [requiredFails, hne]
      rw [hrf, hne, hi] at hn ⊢
      simp only [Bool.false_eq_true, if_false] at hn ⊢
      have hreq : ∀ {P : Prop}, v.isEmpty = true → P := by intro P h; rw [hne] at h; cases h
      unfold validateF at hn ⊢
      cases hov : f.ty.override with
      | some g =>
        obtain ⟨ty, o⟩ := f
        cases ty with
        | leaf l =>
          have hov : l.override = some g := hov
          simp only [Field.ty_mk, FType.override, hov] at hn ⊢
          constructor
          · rintro ⟨e, h1, h2⟩
            obtain ⟨k, ms, rfl⟩ := hf.1.2.1 g hov _ _ _ _ h1 (hn _ h1)
            obtain ⟨rfl, rfl⟩ := at_leaf.1 h2
            exact .own hne hov h1
          · intro h
            cases h with
            | required _ h => exact hreq h
            | own _ h1 h2 =>
              rw [hov] at h1; injection h1 with h1; subst h1
              exact ⟨_, h2, at_leaf.2 ⟨rfl, rfl⟩⟩
            | refused _ h => rw [show (Field.mk (.leaf l) o).ty.override = l.override from rfl, hov] at h; cases h
            | inside _ h => rw [show (Field.mk (.leaf l) o).ty.override = l.override from rfl, hov] at h; cases h
        | _ => cases hov
      | none =>
        simp only [hov] at hn ⊢
        have hownf : ∀ {P : Prop} {l o g}, f = .mk (.leaf l) o → l.override = some g → P := by
          rintro P l o g rfl h
          rw [show (Field.mk (.leaf l) o).ty.override = l.override from rfl, h] at hov
          cases hov
        -- the conversion, then the validators on the value shown
        have key : ∀ (conv : R Val) (pick : Val → Val),
            conv = convertF (fieldConv env n) env ctx f v →
            (ctx.convert = true ∨ f.ty.isCompound = true) →
            (∀ w, pick w = if ctx.convert then w else v) →
            NoCrash (match conv with | .error e => .error e | .ok w => finishValidation ctx.app (pick w) f.allValidators) →
            (Rep (match conv with | .error e => .error e | .ok w => finishValidation ctx.app (pick w) f.allValidators) p t ↔
              VProblem env ctx named f v p t) := by
          rintro conv pick rfl hcomp hpick hnc
          cases hcv : convertF (fieldConv env n) env ctx f v with
          | error e =>
            rw [hcv] at hnc
            simp only [] at hnc ⊢
            have hnc' : NoCrash (convertF (fieldConv env n) env ctx f v) := by
              rw [hcv]; intro e' he'; injection he' with he'; subst he'; exact hnc _ rfl
            have hpath := convertV_paths henv ih hi hv hf hcomp hne ht hnc' p t
            rw [hcv] at hpath
            have hcast : Rep (.error e : R Val) p t ↔ VInside env ctx f v p t := hpath
            rw [hcast]
            constructor
            · intro h; exact .inside hne hov h
            · intro h
              cases h with
              | required _ h => exact hreq h
              | own _ h1 => exact hownf rfl h1
              | refused _ _ hsh _ _ =>
                exfalso
                have hdet : ∀ m x, convertF (fieldConv env m) env ctx f v ≠ .ok x := by
                  intro m x hx
                  have := convertF_det env (n := n) (by rw [hcv]; intro h; injection h with h; subst h; have := hnc _ rfl; cases this) hx
                  rw [hcv] at this; cases this
                rcases hsh with ⟨_, m, hm⟩ | ⟨hc, _, ⟨l, hl⟩ | ⟨m, w, hm⟩⟩
                · exact hdet _ _ hm
                · rcases hcomp with h | h
                  · rw [hc] at h; cases h
                  · rw [hl] at h; cases h
                · exact hdet _ _ hm
              | inside _ _ h => exact h
          | ok w =>
            simp only []
            rw [(finish_rep hf ctx.app (pick w) p t).2]
            constructor
            · rintro ⟨rfl, vs, h1, h2, rfl⟩
              refine .refused hne hov ?_ h1 h2
              cases hc : ctx.convert with
              | true => left; rw [hpick, hc]; exact ⟨rfl, n, hcv⟩
              | false => right; rw [hpick, hc]; exact ⟨rfl, rfl, Or.inr ⟨n, w, hcv⟩⟩
            · intro h
              cases h with
              | required _ h => exact hreq h
              | own _ h1 => exact hownf rfl h1
              | @refused _ _ _ _ x vs _ _ hsh h1 h2 =>
                have hx : x = pick w := by
                  rw [hpick]
                  rcases hsh with ⟨hc, m, hm⟩ | ⟨hc, rfl, _⟩
                  · rw [hc]
                    have := convertF_det env (n := n) (by rw [hcv]; simp) hm
                    rw [hcv] at this; injection this with this; exact this.symm
                  · rw [hc]; simp
                rw [← hx]
                exact ⟨rfl, vs, h1, h2, rfl⟩
              | inside _ _ h =>
                exfalso
                have := (convertV_paths henv ih hi hv hf hcomp hne ht (by rw [hcv]; intro e he; cases he) p t).2 h
                rw [hcv] at this
                exact rep_ok this
        cases hc : ctx.convert with
        | true =>
          rw [hc] at hn
          simp only [if_true] at hn ⊢
          exact key _ (fun w => w) rfl (Or.inl hc) (by intro w; rw [hc]; simp) hn
        | false =>
          rw [hc] at hn
          simp only [Bool.false_eq_true, if_false] at hn ⊢
          cases hcomp : f.ty.isCompound with
          | true =>
            rw [hcomp] at hn
            simp only [if_true] at hn ⊢
            exact key _ (fun _ => v) rfl (Or.inr hcomp) (by intro w; rw [hc]; simp) hn
          | false =>
            simp only [Bool.false_eq_true, if_false]
            rw [(finish_rep hf ctx.app v p t).2]
            have hleaf : ∃ l, f.ty = .leaf l := by
              cases hty : f.ty with
              | leaf l => exact ⟨l, rfl⟩
              | _ => rw [hty] at hcomp; cases hcomp
            constructor
            · rintro ⟨rfl, vs, h1, h2, rfl⟩
              exact .refused hne hov (Or.inr ⟨hc, rfl, Or.inl hleaf⟩) h1 h2
            · intro h
              cases h with
              | required _ h => exact hreq h
              | own _ h1 => exact hownf rfl h1
              | @refused _ _ _ _ x vs _ _ hsh h1 h2 =>
                rcases hsh with ⟨hc', _⟩ | ⟨_, rfl, _⟩
                · rw [hc] at hc'; cases hc'
                · exact ⟨rfl, vs, h1, h2, rfl⟩
              | inside _ _ h =>
                exfalso
                obtain ⟨l, hl⟩ := hleaf
                obtain ⟨ty, o⟩ := f
                simp only [Field.ty_mk] at hl
                subst hl
                cases h with
                | scalar h _ => rw [hc] at h; cases h
                | unusable _ h => cases h
                | field h => cases h
                | method h => cases h
                | setter h => cases h
                | rogue h => cases h

/-! ## The theorems -/

/-- **C15** (validating a field).  The error raised when a field of any type is validated, at any nesting
depth, has an entry `t` under path `p` exactly when at location `p` of the input a value fails with `t` by
its own: it is missing, cannot be converted, is unknown in strict mode, or is converted and then refused by
its validators or by the `validate_<field>` method of the nested model it is a field of. -/
theorem C15_field_validation_tree {env : Env} (henv : env.ProperV) (n : Nat) {ctx : Ctx} (hi : ctx.conv = .val)
    (hv : ctx.validate = true) {f : Field} (hf : f.HonestV) {v : Val} (ht : Tidy env v)
    (hn : ∀ e, fieldConv env n ctx true f v = .error e → e.caught = true) (p : List Key) (t : ErrTree) :
    (∃ e, fieldConv env n ctx true f v = .error e ∧ At e.tree p t) ↔ VProblem env ctx true f v p t :=
  validate_paths henv n ctx true f v hi hv hf ht hn p t

/-- **C15** (validating a model).  The errors of a validation which does not crash, of an instance with the
given content and further raw data: path `k :: p` of the error tree holds `t` exactly when the location reached
by `k :: p` in the data fails with `t` by its own. -/
theorem C15_validation_tree_mirrors_data {env : Env} (henv : env.ProperV) (n : Nat) {ctx : Ctx} (hi : ctx.conv = .val)
    (hv : ctx.validate = true) {c : ClassDef} (hc : c.ProperV env) (content raw : Data)
    (ht : ∀ kv ∈ raw, Tidy env kv.2) (hd : ∀ kv ∈ content, Tidy env kv.2) (hn : ¬ Crashed (runValidate env n ctx c (.inst content) raw))
    (k : Key) (p : List Key) (t : ErrTree) :
    (∃ u, Dict.get? (errorsOf (runValidate env n ctx c (.inst content) raw)) k = some u ∧ At u p t) ↔
      ModelVProblem env ctx c content raw k p t := by
  have hc' := hc
  obtain ⟨hwf, hext, hpm, hflds⟩ := hc
  unfold runValidate at hn ⊢
  have hdata : ∀ e, validateFn (fieldConv env n) env ctx c (.inst content) raw = .error e → ∃ es q, e = .data es q := by
    intro e he
    refine Classical.byContradiction fun h => hn ⟨e, he, fun es q hq => h ⟨es, q, hq⟩⟩
  have hnc : NoCrash (validateFn (fieldConv env n) env ctx c (.inst content) raw) := by
    intro e he
    obtain ⟨es, q, rfl⟩ := hdata e he
    rfl
  have hrep : (∃ u, Dict.get? (errorsOf (validateFn (fieldConv env n) env ctx c (.inst content) raw)) k = some u ∧ At u p t) ↔
      Rep (validateFn (fieldConv env n) env ctx c (.inst content) raw) (k :: p) t := by
    cases hb : validateFn (fieldConv env n) env ctx c (.inst content) raw with
    | ok d =>
      refine ⟨?_, fun h => absurd h rep_ok⟩
      rintro ⟨u, h, _⟩; cases h
    | error e =>
      obtain ⟨es, q, rfl⟩ := hdata e hb
      constructor
      · rintro ⟨u, h, h'⟩; exact ⟨_, rfl, .down h h'⟩
      · rintro ⟨e, h, h'⟩
        injection h with h; subst h
        obtain ⟨k', q', u, h3, h4, h5⟩ := at_node.1 h'
        injection h3 with h3 h3'; subst h3 h3'
        exact ⟨u, h4, h5⟩
  have hsub : ∀ fd, (innerCtx env ctx fd).conv = .val ∧ (innerCtx env ctx fd).validate = true := by
    intro fd; unfold innerCtx; split <;> exact ⟨hi, hv⟩
  rw [hrep, level_problems hv (validateFn_level hwf hext hpm trivial hnc) hwf hext fun rs content' raw' hpr fd hfd hl hnf q u =>
      validate_paths henv n _ true fd.field _ (hsub fd).1 (hsub fd).2 (hflds fd hfd).2.2.1
        (tidy_input (tidy_prepared hc' hpr ht hd) ctx _ fd (hflds fd hfd).2.2.2) hnf q u]
  unfold ModelVProblem
  simp only [true_and, forall_const]

/-! ## The hypotheses are met -/

theorem Samples.int_honestV (o : FieldOpts) (ho : o.validators = []) : (Field.mk (.leaf Samples.intLeaf) o).HonestV := by
  refine ⟨⟨fun _ _ _ h _ => ⟨_, _, Samples.intLeaf_err h⟩, fun g h => (by cases h), ?_⟩, by rw [ho]; intro g h; cases h⟩
  intro g hg app v
  simp only [Samples.intLeaf, List.mem_cons, List.not_mem_nil, or_false] at hg
  subst hg
  cases v with
  | int i =>
    by_cases hi : i < 0
    · exact ⟨.fail ["neg"], by simp [Gives, hi]; rfl⟩
    · exact ⟨.pass, by simp [Gives, hi]⟩
  | _ => exact ⟨.pass, rfl⟩
theorem Samples.str_honestV (o : FieldOpts) (ho : o.validators = []) : (Field.mk (.leaf Samples.strLeaf) o).HonestV :=
  ⟨⟨fun _ _ _ h _ => ⟨_, _, Samples.strLeaf_err h⟩, fun g h => (by cases h), fun g h => (by cases h)⟩, by rw [ho]; intro g h; cases h⟩

theorem Samples.item_properV (env : Env) : Samples.item.ProperV env :=
  ⟨Samples.item_wf, by unfold DistinctExt; decide, (by intro kv h; cases h),
    Samples.item_fields ⟨(by intro f _ _ _ _ _ h; cases h), (by intro g d w h; cases h), Samples.int_honestV _ rfl, Samples.tidy_scalar _ _ (Or.inl rfl)⟩
      ⟨(by intro f _ _ _ _ _ h; cases h), (by intro g d w h; cases h), Samples.str_honestV _ rfl, Samples.tidy_scalar _ _ (Or.inl rfl)⟩⟩
theorem Samples.order_properV (env : Env) : Samples.order.ProperV env := by
  have hnil : ∀ g ∈ ([] : List Validator), Validator.Decides g := by intro g h; cases h
  exact ⟨Samples.order_wf, by unfold DistinctExt; decide, (by intro kv h; cases h),
    Samples.order_fields ⟨(by intro f _ _ _ _ _ h; cases h), (by intro g d w h; cases h), Samples.int_honestV _ rfl, Samples.tidy_scalar _ _ (Or.inl rfl)⟩
      ⟨(by intro f _ _ _ _ _ h; cases h), (by intro g d w h; cases h), ⟨⟨trivial, hnil⟩, hnil⟩, Samples.tidy_scalar _ _ (Or.inl rfl)⟩
      ⟨(by intro f _ _ _ _ _ h; cases h), (by intro g d w h; cases h), ⟨⟨Samples.int_honestV _ rfl, fun k e h => (by cases h)⟩, hnil⟩, Samples.tidy_scalar _ _ (Or.inl rfl)⟩
      ⟨(by intro f _ _ _ _ _ h; cases h), (by intro g d w h; cases h), Samples.str_honestV _ rfl, Samples.tidy_scalar _ _ (Or.inr (Or.inr (Or.inr ⟨_, rfl⟩)))⟩
      ⟨(by intro f _ _ _ _ _ h; cases h), (by intro g d w h; cases h), ⟨trivial, hnil⟩, Samples.tidy_scalar _ _ (Or.inl rfl)⟩⟩

/-- `{'id': 1, 'items': [{'qty': 3}, {'qty': -2}]}` -/
def Samples.negative : Data :=
  [(.str "id", .int 1), (.str "items", .list [.dict [(.str "qty", .int 3)], .dict [(.str "qty", .int (-2))]])]

theorem Samples.negative_tidy (env : Env) : ∀ kv ∈ Samples.negative, Tidy env kv.2 := by
  have hs : ∀ i, Tidy env (.int i) := fun i => Samples.tidy_scalar _ _ (Or.inr (Or.inr (Or.inl ⟨_, rfl⟩)))
  intro kv h
  simp only [Samples.negative, List.mem_cons, List.not_mem_nil, or_false] at h
  rcases h with rfl | rfl
  · exact hs _
  · refine .list fun x hx => ?_
    simp only [List.mem_cons, List.not_mem_nil, or_false] at hx
    rcases hx with rfl | rfl <;> exact .dict (by decide) (by simpa using hs _)

theorem Samples.env_properV : Samples.env.ProperV := Samples.env_classes (Samples.item_properV _) (Samples.order_properV _)

/-- The second item converts, but is refused by a validator, which is reported under `items.1.qty`. -/
example : ModelVProblem Samples.env Samples.vctx Samples.order [] Samples.negative (.str "items") [.int 1, .str "qty"]
    (.leaf .valid ["neg"]) := by
  refine (C15_validation_tree_mirrors_data Samples.env_properV 5 rfl rfl
    (Samples.order_properV _) [] Samples.negative (Samples.negative_tidy _) (by intro kv h; cases h) (Samples.not_crashed rfl) _ _ _).1 ?_
  exact ⟨_, rfl, .down rfl (.down rfl (.here (by intro es h; cases h)))⟩
/-- The list itself has no entry of its own. -/
example (t : ErrTree) : ¬ ModelVProblem Samples.env Samples.vctx Samples.order [] Samples.negative (.str "items") [] t := by
  intro h
  obtain ⟨u, h1, h2⟩ := (C15_validation_tree_mirrors_data Samples.env_properV 5 (ctx := Samples.vctx) rfl rfl
    (Samples.order_properV _) [] Samples.negative (Samples.negative_tidy _) (by intro kv h; cases h) (Samples.not_crashed rfl) _ _ _).2 h
  injection h1 with h1; subst h1
  cases h2 with | here hh => exact hh _ rfl
example := C15_field_validation_tree Samples.env_properV 5 (ctx := Samples.vctx) rfl rfl
  (f := .mk (.model "Item") {}) ⟨trivial, by intro g h; cases h⟩ (v := .int 3) (Samples.tidy_scalar _ _ (Or.inr (Or.inr (Or.inl ⟨_, rfl⟩))))
  (by intro e h; cases h; rfl)

/-- Items whose `validate_qty` refuses the number three. -/
def Samples.picky : ClassDef :=
  { Samples.item with validators := [("qty", fun _ d w _ => match w with | .int 3 => .error (.field .valid ["three"]) | _ => .ok d)] }
/-- The sample classes with the picky items. -/
def Samples.pickyEnv : Env :=
  { Samples.env with cls := fun k => if k = "Item" then some Samples.picky else if k = "Order" then some Samples.order else none }
theorem Samples.picky_properV (env : Env) : Samples.picky.ProperV env := by
  obtain ⟨h1, h2, _, h3⟩ := Samples.item_properV env
  refine ⟨h1, h2, ?_, h3⟩
  intro kv h mv d w app es he
  simp only [Samples.picky, List.mem_cons, List.not_mem_nil, or_false] at h
  subst h
  simp only [] at he
  split at he <;> cases he
theorem Samples.pickyEnv_properV : Samples.pickyEnv.ProperV := by
  intro k c h
  simp only [Samples.pickyEnv] at h
  split at h
  · cases h; exact Samples.picky_properV _
  · split at h
    · cases h; exact Samples.order_properV _
    · cases h

/-- A method of a nested model in a list refuses the first item, a validator the second: both are reported. -/
example : ModelVProblem Samples.pickyEnv Samples.vctx Samples.order [] Samples.negative (.str "items") [.int 0, .str "qty"] (.msgs ["three"]) ∧
    ModelVProblem Samples.pickyEnv Samples.vctx Samples.order [] Samples.negative (.str "items") [.int 1, .str "qty"] (.leaf .valid ["neg"]) := by
  have h := C15_validation_tree_mirrors_data Samples.pickyEnv_properV 5 (ctx := Samples.vctx) rfl rfl
    (Samples.order_properV _) [] Samples.negative (Samples.negative_tidy _) (by intro kv h; cases h) (Samples.not_crashed rfl)
  exact ⟨(h _ _ _).1 ⟨_, rfl, .down rfl (.down rfl (.here (by intro es h; cases h)))⟩,
    (h _ _ _).1 ⟨_, rfl, .down rfl (.down rfl (.here (by intro es h; cases h)))⟩⟩

/-- Items with a calculated field `code`, whose setter refuses the number seven and assigns others to `qty`. -/
def Samples.coded : ClassDef :=
  { Samples.item with fields := [
      { name := "qty", field := .mk (.leaf Samples.intLeaf) { required := true } },
      { name := "code", field := .mk (.leaf Samples.intLeaf) {}, fget := some fun d => Dict.get? d (Key.str "qty"),
        fset := some fun w => match w with | .int 7 => .error (.field .valid ["seven"]) | _ => .ok [(.str "qty", .int 1)] }] }
/-- The sample classes with the coded items. -/
def Samples.codedEnv : Env :=
  { Samples.env with cls := fun k => if k = "Item" then some Samples.coded else if k = "Order" then some Samples.order else none }

/-- A setter of a nested model refuses in the first item; in the second it accepts and provides the required field. -/
def Samples.codes : Data :=
  [(.str "id", .int 1), (.str "items", .list [.dict [(.str "qty", .int 3), (.str "code", .int 7)], .dict [(.str "code", .int 2)]])]
example : errorsOf (runValidate Samples.codedEnv 5 Samples.vctx Samples.order (.inst []) Samples.codes) =
    [(.str "items", .node [(.int 0, .node [(.str "code", .leaf .valid ["seven"])])])] := rfl

/-- The setter's error is a problem of the location `items.0.code`. -/
example : ModelVProblem Samples.codedEnv Samples.vctx Samples.order [] Samples.codes (.str "items") [.int 0, .str "code"] (.leaf .valid ["seven"]) := by
  have hs : ∀ env i, Tidy env (.int i) := fun env i => Samples.tidy_scalar _ _ (Or.inr (Or.inr (Or.inl ⟨_, rfl⟩)))
  have hc : Samples.coded.ProperV Samples.codedEnv := by
    refine ⟨(by constructor <;> decide), by unfold DistinctExt; decide, (by intro kv h; cases h), ?_⟩
    intro fd h
    simp only [Samples.coded, List.mem_cons, List.not_mem_nil, or_false] at h
    rcases h with rfl | rfl
    · exact ⟨(by intro f _ _ _ _ _ h; cases h), (by intro g d w h; cases h), Samples.int_honestV _ rfl, Samples.tidy_scalar _ _ (Or.inl rfl)⟩
    · refine ⟨?_, ?_, Samples.int_honestV _ rfl, Samples.tidy_scalar _ _ (Or.inl rfl)⟩
      · intro f n ctx v w asg h _ _ h' kv hk
        cases h
        simp only [] at h'
        split at h'
        · cases h'
        · cases h'
          simp only [List.mem_cons, List.not_mem_nil, or_false] at hk
          subst hk; exact hs _ _
      · intro g d w h hd h'
        cases h
        exact hd _ (Dict.mem_of_get? h')
  have henv : Samples.codedEnv.ProperV := by
    intro k c h
    simp only [Samples.codedEnv] at h
    split at h
    · cases h; exact hc
    · split at h
      · cases h; exact Samples.order_properV _
      · cases h
  have ht : ∀ kv ∈ Samples.codes, Tidy Samples.codedEnv kv.2 := by
    intro kv h
    simp only [Samples.codes, List.mem_cons, List.not_mem_nil, or_false] at h
    rcases h with rfl | rfl
    · exact hs _ _
    · refine .list fun x hx => ?_
      simp only [List.mem_cons, List.not_mem_nil, or_false] at hx
      rcases hx with rfl | rfl <;> refine .dict (by decide) fun kv h => ?_
      · simp only [List.mem_cons, List.not_mem_nil, or_false] at h
        rcases h with rfl | rfl <;> exact hs _ _
      · simp only [List.mem_cons, List.not_mem_nil, or_false] at h
        subst h; exact hs _ _
  refine (C15_validation_tree_mirrors_data henv 5 (ctx := Samples.vctx) rfl rfl
    (Samples.order_properV _) [] Samples.codes ht (by intro kv h; cases h) (Samples.not_crashed rfl) _ _ _).1 ?_
  exact ⟨_, rfl, .down rfl (.down rfl (.here (by intro es h; cases h)))⟩

end Verif
