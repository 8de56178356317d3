import Verif.Core.Alone
import Verif.Samples

/-!
# C113: fields used on their own

`field.convert`, `field.validate`, `field.to_primitive` and `field.export` called directly, without a model: for fields built of scalars the outcome is the one the same field has in a model;
for fields with models it is not, and the theorems say what it is.
-/
namespace Verif

/-! ## Specification -/

/-- Scalars, lists and dicts of these, and so on: no models. -/
inductive SoleScalars : Field → Prop
  | leaf (l : Leaf) (o : FieldOpts) : SoleScalars (.mk (.leaf l) o)
  | list {inner : Field} (min max : Option Nat) (o : FieldOpts) : SoleScalars inner → SoleScalars (.mk (.list inner min max) o)
  | dict {inner : Field} (coerce : Key → R Key) (o : FieldOpts) : SoleScalars inner → SoleScalars (.mk (.dict inner coerce) o)

/-- A model class with one field. -/
def soleClass (name : String) (f : Field) : ClassDef := { name := "M", fields := [{ name := name, field := f }] }

/-- The external name of the field. -/
def soleKey (name : String) (f : Field) : String :=
  match f.o.serializedName with
  | some s => if s = "" then name else s
  | none => name

/-- The outcome of a call on the field and the outcome of importing `{name: value}` with the model of that one field: the value returned is the one stored, the error raised is the one listed under the name of the field,
and an exception which is not one of schematics gets through. -/
inductive SameAsInModel (name : String) (key : String) : R Val → R Data → Prop
  | value {w : Val} : w.isUndef = false → SameAsInModel name key (.ok w) (.ok [(.str name, w)])
  | undefined {w : Val} : w.isUndef = true → SameAsInModel name key (.ok w) (.ok [])
  | error {e : Exc} (d : Data) : e.caught = true → SameAsInModel name key (.error e) (.error (.data [(.str key, e.tree)] d))
  | other {e : Exc} : e.caught = false → SameAsInModel name key (.error e) (.error e)

/-! ## The field converters agree -/

theorem soleItem_eq (env : Env) (val : Bool) (ctx : Ctx) (hcv : ctx.conv = if val then .val else .imp) (hc : ctx.convert = true) (happ : ctx.app = .dict []) (n : Nat) :
    ∀ f, SoleScalars f → ∀ v, aloneItem env val n f v = fieldConv env n ctx false f v := by
  induction n with
  | zero => intros; rfl
  | succ n ih =>
    intro f hf v
    show (if f.o.required && v.isEmpty then _ else _) = fieldConvF (fieldConv env n) env ctx false f v
    unfold fieldConvF
    have hr : requiredFails ctx false f v = (f.o.required && v.isEmpty) := by simp [requiredFails]
    rw [hr]
    cases h1 : (f.o.required && v.isEmpty) with
    | true => rfl
    | false =>
      cases h2 : v.isEmpty with
      | true => rfl
      | false =>
        have hconv : ∀ b, aloneConvertF (aloneItem env val n) (fieldConv env n) env b f v = convertF (fieldConv env n) env ctx f v := by
          intro b
          cases hf with
          | leaf l o => simp only [aloneConvertF, convertF, Field.ty_mk, happ]
          | list min max o hi => simp only [aloneConvertF, convertF, Field.ty_mk]; rw [funext (ih _ hi)]; rfl
          | dict coerce o hi => simp only [aloneConvertF, convertF, Field.ty_mk]; rw [funext (ih _ hi)]; rfl
        cases val with
        | false =>
          simp only [Bool.false_eq_true, if_false] at hcv ⊢
          simp only [hcv, aloneF, Bool.false_eq_true, if_false]
          exact hconv false
        | true =>
          simp only [if_true] at hcv
          simp only [hcv, Bool.false_eq_true, if_false, aloneF, if_true, validateF, hc, happ, hconv true]
          rfl

theorem soleF_eq (env : Env) (val : Bool) (ctx : Ctx) (hcv : ctx.conv = if val then .val else .imp) (hc : ctx.convert = true) (happ : ctx.app = .dict []) (n : Nat)
    {f : Field} (hf : SoleScalars f) {v : Val} (hv : v.isEmpty = false) :
    aloneF (aloneItem env val n) (fieldConv env n) env val f v = fieldConv env (n + 1) ctx true f v := by
  have h1 := soleItem_eq env val ctx hcv hc happ (n + 1) f hf v
  have h2 : fieldConv env (n + 1) ctx true f v = fieldConv env (n + 1) ctx false f v := by
    show fieldConvF _ _ _ _ _ _ = fieldConvF _ _ _ _ _ _
    simp [fieldConvF, requiredFails, hv]
  rw [h2, ← h1]
  show _ = (if f.o.required && v.isEmpty then _ else _)
  simp [hv]

/-! ## The model of one field -/

theorem sole_subCtx (env : Env) {ctx : Ctx} (ht : ctx.trusted = []) (hm : ctx.mapping = .empty) (name : String) : subCtx env ctx name = ctx := by
  cases ctx
  simp only at ht hm
  subst ht hm
  rfl

theorem sole_importBody (rec : Rec) (env : Env) (ctx : Ctx) (name : String) (f : Field) (v : Val) (ht : ctx.trusted = []) (hm : ctx.mapping = .empty) (hv : v.isEmpty = false) :
    SameAsInModel name (soleKey name f) (rec ctx true f v) (importBody rec env ctx (soleClass name f) [(.str name, v)] []) := by
  have hvu : v.isUndef = false := by cases v <;> first | rfl | cases hv
  have hrogue : rogueKeys ctx (soleClass name f) [(.str name, v)] = [] := by
    unfold rogueKeys
    cases ctx.strict with
    | false => rfl
    | true =>
      simp [Dict.keys, acceptedKeys, soleClass, inputKeys]
  have hraw : rawValue [(.str name, v)] name = v := by simp [rawValue, Dict.get?]
  have hin : inputValue [(.str name, v)] ctx.mapping { name := name, field := f } = v := by
    simp [inputValue, hraw, hvu]
  have hfill : fillValue ctx { name := name, field := f } v = v := by simp [fillValue, hvu]
  have hloop : (soleClass name f).loopFields ctx = [{ name := name, field := f }] := by
    unfold ClassDef.loopFields
    cases ctx.validate <;> rfl
  have hctx : (if f.ty.isCompound then subCtx env ctx name else ctx) = ctx := by
    rw [sole_subCtx env ht hm]; simp
  have hcopy : ∀ d, copySettable (soleClass name f) ctx [(.str name, v)] d = d := by
    intro d; unfold copySettable; cases ctx.validate <;> rfl
  have hout : fieldOutcome rec env ctx [(.str name, v)] (Dict.has ([] : Data) (.str name)) { name := name, field := f } =
      match rec ctx true f v with
      | .ok w => if w.isUndef then .ok .skip else .ok (.store w)
      | .error e => if e.caught then .ok (.fail e.tree (failRepl ctx { name := name, field := f } e)) else .error e := by
    unfold fieldOutcome
    simp only [hin, hfill, hvu, hctx, Bool.false_and, Bool.false_eq_true, if_false]
    rfl
  have hkey : ({ name := name, field := f } : FieldDef).extName = soleKey name f := rfl
  unfold importBody
  rw [hrogue, hloop, ht]
  simp only [List.foldl_nil, importFields, hout]
  cases hr : rec ctx true f v with
  | ok w =>
    cases hu : w.isUndef with
    | true =>
      simp only [hu, if_true, Acc.apply, hcopy]
      exact .undefined hu
    | false =>
      simp only [hu, Bool.false_eq_true, if_false, Acc.apply, hcopy]
      exact .value hu
  | error e =>
    cases hc : e.caught with
    | false =>
      simp only [hc, Bool.false_eq_true, if_false]
      exact .other hc
    | true =>
      simp only [hc, if_true, Acc.apply, hkey, hcopy]
      exact .error _ hc

theorem sole_mutate (rec : Rec) (ctx : Ctx) (name : String) (f : Field) (raw : Data) : runMutate rec ctx (soleClass name f) (.same false) raw = .ok ⟨[], raw, raw⟩ := rfl

theorem sole_validateFn (rec : Rec) (env : Env) (ctx : Ctx) (name : String) (f : Field) (v : Val) (ht : ctx.trusted = []) (hm : ctx.mapping = .empty) (hv : v.isEmpty = false) :
    SameAsInModel name (soleKey name f) (rec ctx true f v) (validateFn rec env ctx (soleClass name f) (.same false) [(.str name, v)]) := by
  have h := sole_importBody rec env ctx name f v ht hm hv
  have hval : ∀ d, validateModel (soleClass name f) [(.str name, v)] ctx.app d = .ok ([], d) := by
    intro d
    unfold validateModel
    simp only [soleClass, modelValidators]
    cases (rawValue d name).isUndef <;> rfl
  unfold validateFn
  rw [sole_mutate]
  simp only
  cases hi : importBody rec env ctx (soleClass name f) [(.str name, v)] [] with
  | ok d => rw [hi] at h; simpa [hval, Dict.update] using h
  | error e =>
    rw [hi] at h
    cases e with
    | data es d =>
      have hes : es.isEmpty = false := by
        generalize hR : (rec ctx true f v) = R at h
        cases h with
        | error d hc => rfl
        | other hc => cases hc
      simpa [hval, Dict.update, hes] using h
    | field k m => exact h
    | compound es => exact h
    | other s => exact h
    | fuel => exact h

/-! ## C113 -/

/-- **C113** (`field.convert(v)` is what a model with this field does).  For a field of scalars, lists and dicts, with any name and any value but `None`: `convert` returns the value which `import_loop` stores for `{name: v}`,
and raises what it lists for the field; strict or not, partial or not, with or without defaults. -/
theorem C113_convert_as_in_models {env : Env} {n : Nat} {f : Field} (hf : SoleScalars f) (name : String) {v : Val} (hv : v.isEmpty = false)
    {ctx : Ctx} (hcv : ctx.conv = .imp) (hval : ctx.validate = false) (hc : ctx.convert = true) (ht : ctx.trusted = []) (hm : ctx.mapping = .empty) (happ : ctx.app = .dict []) :
    SameAsInModel name (soleKey name f) (fieldConvert env n f v) (runImport env (n + 1) ctx (soleClass name f) (.same false) [(.str name, v)]) := by
  have h : fieldConvert env n f v = fieldConv env (n + 1) ctx true f v := soleF_eq env false ctx (by simpa using hcv) hc happ n hf hv
  rw [h]
  unfold runImport importLoop
  rw [hval]
  exact sole_importBody _ env ctx name f v ht hm hv

/-- **C113** (`field.validate(v)` is what a model with this field does).  For a field of scalars, lists and dicts, with any name and any value but `None`: `validate` returns the value which `validate` of the model stores for
`{name: v}`, and raises what it lists for the field. -/
theorem C113_validate_as_in_models {env : Env} {n : Nat} {f : Field} (hf : SoleScalars f) (name : String) {v : Val} (hv : v.isEmpty = false)
    {ctx : Ctx} (hcv : ctx.conv = .val) (hc : ctx.convert = true) (ht : ctx.trusted = []) (hm : ctx.mapping = .empty) (happ : ctx.app = .dict []) :
    SameAsInModel name (soleKey name f) (fieldValidate env n f v) (runValidate env (n + 1) ctx (soleClass name f) (.same false) [(.str name, v)]) := by
  have h : fieldValidate env n f v = fieldConv env (n + 1) ctx true f v := soleF_eq env true ctx (by simpa using hcv) hc happ n hf hv
  rw [h]
  exact sole_validateFn _ env ctx name f v ht hm hv

/-! ### Fields with models -/

/-- A value which contains no model instance at its top. -/
def Val.isInstance : Val → Bool
  | .inst .. => true
  | _ => false

/-- **C113** (`ModelType(M).convert(d)`).  A dict is converted to the dict which `import_loop(M, d)` returns, with the errors this raises, and is given back as a dict: never as an instance of `M`. -/
theorem C113_convert_model_type {env : Env} {n : Nat} {cls : String} {o : FieldOpts} {c : ClassDef} (hcls : env.cls cls = some c) (d : Data) :
    fieldConvert env n (.mk (.model cls) o) (.dict d) = (runImport env n {} c (.same false) d).map .dict := by
  show modelConv _ env aloneCtx cls (.dict d) = _
  simp only [modelConv, hcls, modelInto, aloneCtx, Bool.and_false, Bool.false_eq_true, if_false, runImport]
  cases importLoop (fieldConv env n) env {} c (.same false) d <;> rfl

/-- **C113** (`ModelType(M).convert(x)` never returns an instance), whatever it is given: an instance too comes back as a dict. -/
theorem C113_convert_no_instance {env : Env} {n : Nat} {cls : String} {o : FieldOpts} {v w : Val} (h : fieldConvert env n (.mk (.model cls) o) v = .ok w) : ∃ d, w = .dict d := by
  change modelConv (fieldConv env n) env aloneCtx cls v = .ok w at h
  have key : ∀ c raw b, modelInto (fieldConv env n) env aloneCtx c raw b = .ok w → ∃ d, w = .dict d := by
    intro c raw b h
    simp only [modelInto, aloneCtx, Bool.and_false, Bool.false_eq_true, if_false] at h
    cases hi : importLoop (fieldConv env n) env {} c (.same b) raw with
    | error e => rw [hi] at h; cases h
    | ok d => rw [hi] at h; injection h with h; exact ⟨d, h.symm⟩
  cases v with
  | inst c' d =>
    simp only [modelConv] at h
    split at h
    · cases hc : env.cls c' with
      | none => rw [hc] at h; cases h
      | some c => rw [hc] at h; exact key _ _ _ h
    · cases h
  | dict d =>
    simp only [modelConv] at h
    cases hc : env.cls cls with
    | none => rw [hc] at h; cases h
    | some c => rw [hc] at h; exact key _ _ _ h
  | _ => simp only [modelConv] at h; cases h

/-- Values which `ModelType(cls)` takes: dicts, and instances of the class or a subclass. -/
def TakenBy (env : Env) (cls : String) : Val → Prop
  | .dict _ => True
  | .inst k _ => env.isSub k cls = true
  | _ => False

/-- **C113** (`ModelType(M).validate(x)` always fails).  On every dict and on every instance of `M` it raises `AttributeError`; and there is no value at all for which it returns. -/
theorem C113_validate_model_type {env : Env} {n : Nat} {cls : String} {o : FieldOpts} (v : Val) :
    (TakenBy env cls v → fieldValidate env n (.mk (.model cls) o) v = .error (.other "AttributeError")) ∧ ∀ w, fieldValidate env n (.mk (.model cls) o) v ≠ .ok w := by
  show (_ → (match aloneModelVal env cls v with | .error e => .error e | .ok w => finishValidation (.dict []) w (Field.allValidators (.mk (.model cls) o)) : R Val) = _) ∧
    ∀ w, (match aloneModelVal env cls v with | .error e => .error e | .ok w => finishValidation (.dict []) w (Field.allValidators (.mk (.model cls) o)) : R Val) ≠ _
  cases v with
  | inst k d =>
    simp only [aloneModelVal, TakenBy]
    cases env.isSub k cls with
    | true => exact ⟨fun _ => rfl, nofun⟩
    | false => exact ⟨nofun, nofun⟩
  | dict d => exact ⟨fun _ => rfl, nofun⟩
  | _ => exact ⟨nofun, nofun⟩

theorem sole_listLoop_other {f : Val → R Val} {e : Exc} (he : e.caught = false) (hf : ∀ x, (∃ y, f x = .ok y) ∨ (∃ e', f x = .error e' ∧ e'.caught = true) ∨ f x = .error e) :
    ∀ (xs : List Val) (i : Nat), (∃ x ∈ xs, f x = .error e) → listLoop f i xs = .error e := by
  intro xs
  induction xs with
  | nil => intro i ⟨x, hx, _⟩; cases hx
  | cons x xs ih =>
    intro i ⟨z, hz, hze⟩
    rcases hf x with ⟨y, hy⟩ | ⟨e', hy, hc⟩ | hy
    · rcases List.mem_cons.1 hz with rfl | hz
      · rw [hy] at hze; cases hze
      · simp only [listLoop, hy, ih (i + 1) ⟨z, hz, hze⟩]
    · rcases List.mem_cons.1 hz with rfl | hz
      · rw [hy] at hze; injection hze with hze; subst hze; rw [he] at hc; cases hc
      · simp only [listLoop, hy, hc, if_true, ih (i + 1) ⟨z, hz, hze⟩]
    · simp only [listLoop, hy, he, Bool.false_eq_true, if_false]

/-- **C113** (`ListType(ModelType(M)).validate(xs)` always fails), as soon as the list has a dict or an instance of `M` somewhere, whatever else it has. -/
theorem C113_validate_model_list {env : Env} {n : Nat} {cls : String} {o o' : FieldOpts} {min max : Option Nat} {xs : List Val} (h : ∃ x ∈ xs, TakenBy env cls x) :
    fieldValidate env (n + 1) (.mk (.list (.mk (.model cls) o') min max) o) (.list xs) = .error (.other "AttributeError") := by
  have hnone : ∀ x : Val, TakenBy env cls x → x.isEmpty = false := by intro x hx; cases x <;> first | rfl | cases hx
  have hitem : ∀ x : Val, TakenBy env cls x → aloneItem env true (n + 1) (.mk (.model cls) o') x = .error (.other "AttributeError") := by
    intro x hx
    show (if o'.required && x.isEmpty then _ else if x.isEmpty then _ else fieldValidate env n (.mk (.model cls) o') x) = _
    simp [hnone x hx, (C113_validate_model_type (n := n) (o := o') x).1 hx]
  have hall : ∀ x : Val, (∃ y, aloneItem env true (n + 1) (.mk (.model cls) o') x = .ok y) ∨
      (∃ e', aloneItem env true (n + 1) (.mk (.model cls) o') x = .error e' ∧ e'.caught = true) ∨ aloneItem env true (n + 1) (.mk (.model cls) o') x = .error (.other "AttributeError") := by
    intro x
    by_cases hx : TakenBy env cls x
    · exact .inr (.inr (hitem x hx))
    · show (∃ y, (if o'.required && x.isEmpty then _ else if x.isEmpty then _ else fieldValidate env n (.mk (.model cls) o') x) = .ok y) ∨
        (∃ e', (if o'.required && x.isEmpty then _ else if x.isEmpty then _ else fieldValidate env n (.mk (.model cls) o') x) = .error e' ∧ e'.caught = true) ∨ _
      cases h1 : o'.required && x.isEmpty with
      | true => exact .inr (.inl ⟨_, rfl, rfl⟩)
      | false =>
        cases h2 : x.isEmpty with
        | true => exact .inl ⟨_, rfl⟩
        | false =>
          refine .inr (.inl ?_)
          show ∃ e', (match aloneModelVal env cls x with | .error e => .error e | .ok w => finishValidation (.dict []) w (Field.allValidators (.mk (.model cls) o')) : R Val) = .error e' ∧ _
          cases x with
          | inst k d =>
            have : env.isSub k cls = false := by simpa [TakenBy] using hx
            simp only [aloneModelVal, this, Bool.false_eq_true, if_false]
            exact ⟨_, rfl, rfl⟩
          | dict d => exact absurd trivial hx
          | _ => exact ⟨_, rfl, rfl⟩
  obtain ⟨x, hx, hxt⟩ := h
  have hl := sole_listLoop_other (e := .other "AttributeError") rfl hall xs 0 ⟨x, hx, hitem x hxt⟩
  show (match listConv (aloneItem env true (n + 1) (.mk (.model cls) o')) xs with | .error e => .error e | .ok w => finishValidation (.dict []) w _ : R Val) = _
  simp only [listConv, hl]

/-! ### Polymorphic fields -/

/-- **C113** (`PolyModelType.convert(v)`).  An allowed instance is returned as it is. -/
theorem C113_convert_poly_instance {env : Env} {n : Nat} {p : PolySpec} {o : FieldOpts} {v : Val} (h : p.allowed env v = true) : fieldConvert env n (.mk (.poly p) o) v = .ok v := by
  show polyConv _ env alonePolyCtx p v = _
  simp [polyConv, alonePolyCtx, h]

/-- **C113** (`PolyModelType.convert(d)`).  A dict becomes an instance of the class that is found for it, with the values which an import of `d` into a new instance of that class gives, defaults and initial `None`s included. -/
theorem C113_convert_poly {env : Env} {n : Nat} {p : PolySpec} {o : FieldOpts} {d : Data} {k : String} {c : ClassDef} (hk : p.findModel env (.dict d) = .ok k) (hc : env.cls k = some c) :
    fieldConvert env n (.mk (.poly p) o) (.dict d) = (runImport env n { init := true, defaults := true } c (.inst []) d).map (.inst c.name) := by
  show polyConv _ env alonePolyCtx p (.dict d) = _
  have ha : p.allowed env (.dict d) = false := rfl
  simp only [polyConv, ha, hk, hc, Val.isDict, Bool.and_false, Bool.not_true, Bool.false_eq_true, if_false, newInstance, alonePolyCtx, runImport]
  cases importLoop (fieldConv env n) env { init := true, defaults := true } c (.inst []) d <;> rfl

/-- **C113** (`PolyModelType.validate(d)`), without choices and validators of the field.  A dict becomes a validated instance of the class that is found for it: unlike `ModelType`, a polymorphic field can validate on its own. -/
theorem C113_validate_poly {env : Env} {n : Nat} {p : PolySpec} {o : FieldOpts} {d : Data} {k : String} {c : ClassDef} (hk : p.findModel env (.dict d) = .ok k) (hc : env.cls k = some c)
    (ho : o.choices = none) (ho' : o.validators = []) :
    fieldValidate env n (.mk (.poly p) o) (.dict d) = (runValidate env n { conv := .val, validate := true, init := true, defaults := true, oo := true } c (.inst []) d).map (.inst c.name) := by
  show (match polyConv (fieldConv env n) env aloneValCtx p (.dict d) with
    | .error e => .error e
    | .ok w => finishValidation (.dict []) w (Field.allValidators (.mk (.poly p) o)) : R Val) = _
  have hv : ∀ w, finishValidation (.dict []) w (Field.allValidators (.mk (.poly p) o)) = .ok w := by
    intro w
    simp [finishValidation, Field.allValidators, runValidators, checkChoices, ho, ho']
  simp only [polyConv, hk, hc, aloneValCtx, Bool.not_true, Bool.false_and, Bool.false_eq_true, if_false, newInstance, if_true, runValidate, hv]
  cases validateFn (fieldConv env n) env { conv := .val, validate := true, init := true, defaults := true, oo := true } c (.inst []) d <;> rfl

/-! ### Export -/

/-- **C113** (`field.to_primitive(v)` and `field.to_native(v)` are what a model with this field exports).  With the export level `ALL`, where nothing is left out, and any value but `None`: the instance with the value `v` is exported as
`{serialized name: w}` where `w` is what the method of the field returns (`None` in place of `Undefined`), and what the one raises the other raises. -/
theorem C113_export_as_in_models {env : Env} {n : Nat} {fmt : Fmt} {f : Field} (name : String) {v : Val} (hv : v.isEmpty = false) (hl : f.o.exportLevel = some ALL) :
    runExport env n { fmt := fmt } (soleClass name f) (.inst [(.str name, v)]) =
      (fieldTo env n fmt (soleClass name f).exportLevel f v).map fun w => [(.str (soleKey name f), if w.isUndef then .none else w)] := by
  have hraw : rawValue [(.str name, v)] name = v := by simp [rawValue, Dict.get?]
  have hkey : ({ name := name, field := f } : FieldDef).extName = soleKey name f := rfl
  have hlev : exportLevelOf { fmt := fmt } (soleClass name f).exportLevel f = ALL := by simp [exportLevelOf, hl]
  have hflt : roleFilter { fmt := fmt } (soleClass name f) = some none := rfl
  have hhid : ∀ w, hidden ALL f w = false := by
    intro w
    simp [hidden, ALL, DEFAULT, NOT_NONE, NONEMPTY]
  show exportLoop _ _ _ _ = _
  unfold exportLoop
  rw [hflt]
  show exportFields _ _ _ _ _ [{ name := name, field := f }] [] = _
  simp only [exportFields, exportField, Src.read, hraw, skipped, hlev, hv, Bool.false_eq_true, if_false, hkey, fieldTo]
  cases fieldExport env { fmt := fmt } n (soleClass name f).exportLevel f v with
  | error e => rfl
  | ok w =>
    simp only [hhid, Bool.false_eq_true, if_false, nullify, Except.map]
    rfl

/-- **C113** (`field.export(v, format)` without a context): for fields of scalars, lists and dicts it is `to_primitive` or `to_native`, at any depth. -/
theorem C113_export_bare {env : Env} {fmt : Fmt} {owner : Nat} (n : Nat) : ∀ {f : Field}, SoleScalars f → ∀ v, fieldExportBare env fmt owner n f v = fieldTo env n fmt owner f v := by
  induction n with
  | zero => intros; rfl
  | succ n ih =>
    intro f hf v
    show (match f.ty with | .model _ => _ | .poly _ => _ | _ => exportF (fun _ => fieldExportBare env fmt owner n) env { fmt := fmt } owner f v) = exportF (fieldExport env { fmt := fmt } n) env { fmt := fmt } owner f v
    cases hf with
    | leaf l o => rfl
    | list min max o hi =>
      simp only [exportF, Field.ty_mk]
      rw [funext (fun v => ih hi v)]; rfl
    | dict coerce o hi =>
      simp only [exportF, Field.ty_mk]
      rw [funext (fun v => ih hi v)]; rfl

/-- **C113** (`ModelType(M).export(v, format)` without a context ignores the format): the fields of `M` are exported in the native format, whatever the format asked for. -/
theorem C113_export_bare_model {env : Env} {fmt : Fmt} {owner : Nat} (n : Nat) (cls : String) (o : FieldOpts) (v : Val) :
    fieldExportBare env fmt owner n (.mk (.model cls) o) v = fieldTo env n .native owner (.mk (.model cls) o) v := by
  cases n <;> rfl

/-! ## The hypotheses are met -/

namespace Samples

/-- `ListType(DictType(IntType))` with a serialized name. -/
def soleF : Field := .mk (.list (.mk (.dict intF (fun k => .ok k)) {}) (some 1) none) { serializedName := some "out", exportLevel := some ALL }

theorem soleF_ok : SoleScalars soleF := .list _ _ _ (.dict _ _ (.leaf _ _))

/-- `[{'a': 1}, {'b': -2}]` -/
def soleV : Val := .list [.dict [(.str "a", .int 1)], .dict [(.str "b", .int (-2))]]

example := C113_convert_as_in_models (env := env) (n := 5) soleF_ok "x" (v := soleV) rfl (ctx := {}) rfl rfl rfl rfl rfl rfl
example := C113_validate_as_in_models (env := env) (n := 5) soleF_ok "x" (v := soleV) rfl (ctx := { conv := .val, validate := true, strict := true }) rfl rfl rfl rfl rfl
example : fieldConvert env 5 soleF soleV = .ok soleV := rfl
-- the negative number is refused by a validator of the innermost type, two levels down
example : ∃ es, fieldValidate env 5 soleF soleV = .error (.compound es) ∧
    runValidate env 6 { conv := .val, validate := true } (soleClass "x" soleF) (.same false) [(.str "x", soleV)] = .error (.data [(.str "out", .node es)] []) := ⟨_, rfl, rfl⟩
example : fieldConvert env 5 soleF (.int 3) = convErr "list" := rfl

example := C113_convert_model_type (env := env) (n := 5) (cls := "Item") (o := {}) (c := item) rfl [(.str "qty", .int 3)]
example : fieldConvert env 5 (.mk (.model "Item") {}) (.inst "Item" [(.str "qty", .int 3), (.str "tag", .str "x")]) = .ok (.dict [(.str "qty", .int 3), (.str "tag", .str "x")]) := rfl
example := (C113_validate_model_type (env := env) (n := 5) (cls := "Item") (o := {}) (.inst "Item" [])).1 rfl
example := C113_validate_model_list (env := env) (n := 5) (cls := "Item") (o := {}) (o' := {}) (min := none) (max := none) (xs := [.none, .int 5, .dict []]) ⟨.dict [], by simp, trivial⟩
example : runExport env 5 { fmt := .primitive } (soleClass "x" soleF) (.inst [(.str "x", soleV)]) = .ok [(.str "out", soleV)] := rfl
example := C113_export_as_in_models (env := env) (n := 5) (fmt := .primitive) (f := soleF) "x" (v := soleV) rfl rfl
example := C113_export_bare (env := env) (fmt := .primitive) (owner := 10) 5 soleF_ok soleV

/-- A scalar whose primitive form is a string, like that of a date. -/
def stampLeaf : Leaf where
  toNative _ v := .ok v
  toPrimitive _ v := match v with | .int i => .ok (.str (toString i)) | v => .ok v

/-- A class with such a field. -/
def stamped : ClassDef := { name := "Stamped", fields := [{ name := "at", field := .mk (.leaf stampLeaf) {} }] }

/-- The class table with it. -/
def stampEnv : Env where
  cls k := if k = "Stamped" then some stamped else none
  isSub a b := a == b
  subs _ := []

/-- **C113** (the format is lost).  `ModelType(M).export(m, PRIMITIVE)` leaves the values of `m` native; `to_primitive` of the same field does not. -/
theorem C113_counterexample_export_format :
    fieldExportBare stampEnv .primitive 10 5 (.mk (.model "Stamped") {}) (.inst "Stamped" [(.str "at", .int 3)]) = .ok (.dict [(.str "at", .int 3)]) ∧
    fieldTo stampEnv 5 .primitive 10 (.mk (.model "Stamped") {}) (.inst "Stamped" [(.str "at", .int 3)]) = .ok (.dict [(.str "at", .str "3")]) := ⟨rfl, rfl⟩

/-- **C113** (a valid dict is refused).  `ModelType(M).validate({...})` raises `AttributeError` where a model with this field accepts the same dict. -/
theorem C113_counterexample_validate_model :
    fieldValidate env 5 (.mk (.model "Item") {}) (.dict [(.str "qty", .int 3)]) = .error (.other "AttributeError") ∧
    ∃ d, runValidate env 6 { conv := .val, validate := true, oo := true } (soleClass "x" (.mk (.model "Item") {})) (.same false) [(.str "x", .dict [(.str "qty", .int 3)])] = .ok d := ⟨rfl, _, rfl⟩

/-- `PolyModelType([Order])` -/
def solePoly : PolySpec := { classes := ["Order"], allowSub := false }

example := C113_convert_poly_instance (env := env) (n := 5) (p := solePoly) (o := {}) (v := .inst "Order" []) rfl
example := C113_convert_poly (env := env) (n := 5) (p := solePoly) (o := {}) (d := [(.str "id", .int 1)]) (k := "Order") (c := order) rfl rfl
example := C113_validate_poly (env := env) (n := 5) (p := solePoly) (o := {}) (d := [(.str "id", .int 1)]) (k := "Order") (c := order) rfl rfl rfl rfl

/-- **C113** (dicts inside the instance).  `PolyModelType([Order]).convert({'id': 1, 'parent': {'id': 2}})` is an `Order` whose `parent` is a dict; a model with this field makes an `Order` of it. -/
theorem C113_counterexample_poly_parent :
    let d : Data := [(.str "id", .int 1), (.str "parent", .dict [(.str "id", .int 2)])]
    (∃ l l', fieldConvert env 5 (.mk (.poly solePoly) {}) (.dict d) = .ok (.inst "Order" l) ∧ Dict.get? l (.str "parent") = some (.dict l')) ∧
    ∃ l l', runImport env 6 { oo := true, init := true, defaults := true } (soleClass "x" (.mk (.poly solePoly) {})) (.inst []) [(.str "x", .dict d)] = .ok [(.str "x", .inst "Order" l)] ∧
      Dict.get? l (.str "parent") = some (.inst "Order" l') := ⟨⟨_, _, rfl, rfl⟩, _, _, rfl, rfl⟩

end Samples
end Verif
