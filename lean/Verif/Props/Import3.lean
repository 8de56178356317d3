import Verif.Samples
import Verif.Props.Import2

/-! # Properties of import: key containment, defaults, initialisation, name
precedence, independence, trusted data (C04, C07-C12) -/
namespace Verif

/-! ## vocabulary -/

/-- The input supplies `v` for a field known under `names`: `v` is stored under the
first name that occurs in the input. -/
inductive FirstPresent (raw : Data) : List String → Val → Prop
  | here {s ss v} : raw.get? (.str s) = some v → FirstPresent raw (s :: ss) v
  | later {s ss v} : raw.get? (.str s) = none → FirstPresent raw ss v → FirstPresent raw (s :: ss) v

/-- None of the names occurs in the input. -/
def AllAbsent (raw : Data) (names : List String) : Prop := ∀ s ∈ names, raw.get? (.str s) = none

/-- No alias is the empty string (the code ignores such aliases). -/
def AliasesOk (m : Mapping) (fd : FieldDef) : Prop := "" ∉ (ownNames m fd).tail

/-- The same field declared with another default. -/
def FieldDef.withDefault (fd : FieldDef) (dv : Val) : FieldDef :=
  { fd with field := .mk fd.field.ty { fd.field.o with default := dv } }

/-- Scalar conversions never produce `Undefined` (true of all built-in types). -/
def LeafDefined (l : Leaf) : Prop :=
  (∀ app v w, l.toNative app v = .ok w → w ≠ .undef) ∧
  (∀ g, l.override = some g → ∀ b app v w, g b app v = .ok w → w ≠ .undef)

/-- Model-level validators of `c` do not invent keys. -/
def ValidatorsKeepKeys (c : ClassDef) : Prop :=
  ∀ nf ∈ c.validators, ∀ mv d v app d', nf.2 mv d v app = .ok d' → ∀ k ∈ d'.keys, k ∈ d.keys

/-! ## C04 -/

theorem foldSettable_keys {raw : Data} {fds : List FieldDef} {d : Data} {k : Key}
    (h : k ∈ (fds.foldl (fun d fd => d.set (.str fd.name) (rawValue raw fd.name)) d).keys) :
    k ∈ d.keys ∨ ∃ fd ∈ fds, k = .str fd.name := by
  rw [← Dict.get?_isSome, foldSettable_get] at h
  split at h
  · right; assumption
  · left; rwa [Dict.get?_isSome] at h

theorem importFields_keys {rec : Rec} {env : Env} {ctx : Ctx} {raw : Data} {fds : List FieldDef}
    {a a' : Acc} (h : importFields rec env ctx raw fds a = .ok a') {k : Key}
    (hk : k ∈ a'.data.keys) : k ∈ a.data.keys ∨ ∃ fd ∈ fds, k = .str fd.name := by
  induction fds generalizing a with
  | nil => simp [importFields] at h; subst h; exact Or.inl hk
  | cons fd fds ih =>
    simp only [importFields] at h
    split at h
    · cases h
    · rename_i o ho
      rcases ih h with h1 | ⟨fd', h1, h2⟩
      · have : k ∈ a.data.keys ∨ k = .str fd.name := by
          cases o with
          | skip => exact Or.inl h1
          | store v => simp only [Acc.apply, Dict.mem_keys_set] at h1; exact h1.symm
          | fail t r =>
            cases r with
            | none => exact Or.inl h1
            | some v => simp only [Acc.apply, Dict.mem_keys_set] at h1; exact h1.symm
        rcases this with h1 | h1
        · exact Or.inl h1
        · exact Or.inr ⟨fd, by simp, h1⟩
      · exact Or.inr ⟨fd', by simp [h1], h2⟩

theorem importBody_keys {rec : Rec} {env : Env} {ctx : Ctx} {c : ClassDef} {raw : Data}
    {errs0 : Errs} {k : Key} (hk : k ∈ (dataOf (importBody rec env ctx c raw errs0)).keys) :
    k ∈ ctx.trusted.keys ∨ ∃ fd ∈ c.fields, k = .str fd.name := by
  unfold importBody at hk
  simp only [] at hk
  split at hk
  · rename_i e he
    cases e with
    | data es p => exact absurd he (importFields_noData es p)
    | _ => cases hk
  · rename_i a ha
    rw [dataOf_ite] at hk
    unfold copySettable at hk
    have hfin : k ∈ a.data.keys ∨ ∃ fd ∈ c.fields, k = .str fd.name := by
      split at hk
      · exact Or.inl hk
      · rcases foldSettable_keys hk with h | ⟨fd, h1, h2⟩
        · exact Or.inl h
        · exact Or.inr ⟨fd, settable_sub h1, h2⟩
    rcases hfin with h | h
    · rcases importFields_keys ha h with h | ⟨fd, h1, h2⟩
      · exact Or.inl h
      · exact Or.inr ⟨fd, loop_sub h1, h2⟩
    · exact Or.inr h

theorem modelValidators_keys {c : ClassDef} (hv : ValidatorsKeepKeys c) {mv : Data} {app : Val}
    {fds : List FieldDef} {d : Data} {r : Errs × List String × Data}
    (h : modelValidators c mv app fds d = .ok r) {k : Key} (hk : k ∈ r.2.2.keys) : k ∈ d.keys := by
  induction fds generalizing d r with
  | nil => simp [modelValidators] at h; subst h; exact hk
  | cons fd fds ih =>
    simp only [modelValidators] at h
    split at h
    · exact ih h hk
    · rename_i f hf
      split at hf
      · cases hf
      · split at h
        · rename_i d' hd'
          exact hv _ (Dict.mem_of_get? hf) _ _ _ _ _ hd' k (ih h hk)
        · split at h
          · cases h
          · split at h
            · cases h
            · rename_i hr
              injection h with h
              subst h
              exact ih hr hk

theorem popAll_keys {ns : List String} {d d' : Data} (h : popAll ns d = .ok d') {k : Key}
    (hk : k ∈ d'.keys) : k ∈ d.keys := by
  induction ns generalizing d with
  | nil => simp [popAll] at h; subst h; exact hk
  | cons n ns ih =>
    simp only [popAll] at h
    split at h
    · exact Dict.mem_keys_erase_of (ih h)
    · cases h

/-- **C04.** Whatever the input, whether the import succeeds or fails, every key of
the produced data (the result or `partial_data`) is a declared field or was in the
trusted data.  The same holds for model validation, if model-level validators do
not themselves add keys. -/
theorem C04_only_declared_fields (env : Env) (n : Nat) (ctx : Ctx) (c : ClassDef) (mu : Mut)
    (raw : Data) :
    (∀ k ∈ (dataOf (runImport env n ctx c mu raw)).keys,
      k ∈ ctx.trusted.keys ∨ ∃ fd ∈ c.fields, k = .str fd.name) ∧
    (ValidatorsKeepKeys c → ∀ k ∈ (dataOf (runValidate env n ctx c mu raw)).keys,
      k ∈ ctx.trusted.keys ∨ ∃ fd ∈ c.fields, k = .str fd.name) := by
  constructor
  · intro k hk
    unfold runImport importLoop at hk
    split at hk
    · split at hk
      · rename_i e he
        cases e with
        | data es p => exact absurd he (runMutate_noData es p)
        | _ => cases hk
      · exact importBody_keys hk
    · exact importBody_keys hk
  · intro hv k hk
    unfold runValidate validateFn at hk
    split at hk
    · rename_i e he
      cases e with
      | data es p => exact absurd he (runMutate_noData es p)
      | _ => cases hk
    · rename_i m hm
      have tail : ∀ (es : Errs) (d : Data),
          (∀ k ∈ d.keys, k ∈ ctx.trusted.keys ∨ ∃ fd ∈ c.fields, k = .str fd.name) →
          k ∈ (dataOf (match validateModel c m.data ctx.app d with
              | .error e => .error e
              | .ok (es2, d') =>
                let es' := es.update es2
                if es'.isEmpty then .ok d' else .error (.data es' d'))).keys →
          k ∈ ctx.trusted.keys ∨ ∃ fd ∈ c.fields, k = .str fd.name := by
        intro es d hd hk
        cases hvm : validateModel c m.data ctx.app d with
        | error e =>
          rw [hvm] at hk
          cases e with
          | data es p => exact absurd hvm (validateModel_noData es p)
          | _ => cases hk
        | ok r =>
          rw [hvm] at hk
          simp only [dataOf_ite] at hk
          unfold validateModel at hvm
          split at hvm
          · cases hvm
          · rename_i hmv
            split at hvm
            · cases hvm
            · rename_i hpop
              injection hvm with hvm
              subst hvm
              exact hd k (modelValidators_keys hv hmv (popAll_keys hpop hk))
      have hb := fun k => importBody_keys (rec := fieldConv env n) (env := env) (ctx := ctx)
        (c := c) (raw := m.raw) (errs0 := m.errs) (k := k)
      cases hi : importBody (fieldConv env n) env ctx c m.raw m.errs with
      | ok d => rw [hi] at hk hb; exact tail [] d hb hk
      | error e =>
        cases e with
        | data es p => rw [hi] at hk hb; exact tail es p hb hk
        | _ => rw [hi] at hk; cases hk

/-! ## C09 -/

theorem get?_single (s t : String) (v : Val) :
    Dict.get? ([(.str s, v)] : Data) (.str t) = if s = t then some v else none := by
  rw [Dict.get?_cons]
  by_cases h : s = t
  · simp [h]
  · simp [h]

theorem aliasValue_first {raw : Data} {name : String} {ks : List String} {v : Val}
    (hn : raw.get? (.str name) = none) (he : "" ∉ ks) (h : FirstPresent raw ks v) :
    aliasValue raw name ks = v := by
  induction h with
  | @here s ss v h =>
    have h1 : s ≠ "" := fun hh => he (by simp [hh])
    have h2 : s ≠ name := by rintro rfl; rw [hn] at h; cases h
    simp [aliasValue, h1, h2, h]
  | @later s ss v h1 h2 ih =>
    have ih := ih (fun hh => he (by simp [hh]))
    simp only [aliasValue, h1, ih]
    split <;> rfl

theorem aliasValue_absent {raw : Data} {name : String} {ks : List String}
    (h : AllAbsent raw ks) : aliasValue raw name ks = .undef := by
  induction ks with
  | nil => rfl
  | cons s ss ih =>
    have ih := ih fun s hs => h s (by simp [hs])
    simp only [aliasValue, h s (by simp), ih]
    split <;> rfl

theorem inputValue_first {raw : Data} {m : Mapping} {fd : FieldDef} {v : Val}
    (ha : AliasesOk m fd) (hv : v ≠ .undef) (h : FirstPresent raw (ownNames m fd) v) :
    inputValue raw m fd = v := by
  have hne : v.isUndef = false := by
    cases hh : v.isUndef with
    | false => rfl
    | true => exact absurd ((Val.isUndef_iff v).1 hh) hv
  unfold inputValue
  rw [← ownNames_eq]
  unfold AliasesOk at ha
  unfold ownNames at h ha ⊢
  cases h with
  | here h => simp [rawValue, h, hne]
  | later h1 h2 =>
    simp only [rawValue, h1, Option.getD_none, Val.isUndef, if_true]
    rw [aliasValue]
    simp only [ne_eq, not_true_eq_false, and_false, if_false]
    exact aliasValue_first h1 ha h2

theorem inputValue_absent {raw : Data} {m : Mapping} {fd : FieldDef}
    (h : AllAbsent raw (ownNames m fd)) : inputValue raw m fd = .undef := by
  unfold inputValue
  rw [← ownNames_eq, aliasValue_absent h]
  have : rawValue raw fd.name = .undef := by
    unfold rawValue; rw [h fd.name (by simp [ownNames])]; rfl
  simp [this]

theorem fieldRes_input {rec : Rec} {env : Env} {ctx : Ctx} {raw raw' : Data} {fd : FieldDef}
    (h : inputValue raw ctx.mapping fd = inputValue raw' ctx.mapping fd) :
    fieldRes rec env ctx raw fd = fieldRes rec env ctx raw' fd := by
  unfold fieldRes fieldOutcome
  rw [h]

theorem solo_input {env : Env} {n : Nat} {ctx : Ctx} (hv : ctx.validate = false) {c : ClassDef}
    {mu : Mut} {raw raw' : Data} {fd : FieldDef} (hp : fd.fset = none)
    (h : inputValue raw ctx.mapping fd = inputValue raw' ctx.mapping fd) :
    solo env n ctx c mu raw fd = solo env n ctx c mu raw' fd := by
  rw [solo_eq hv c mu raw hp, solo_eq hv c mu raw' hp, fieldRes_input h]

theorem single_first (m : Mapping) (fd : FieldDef) (v : Val) :
    FirstPresent [(.str fd.name, v)] (ownNames m fd) v := by
  unfold ownNames
  exact .here (by rw [get?_single, if_pos rfl])

/-- **C09.** Own name, serialized name, mapped names, `deserialize_from` aliases:
the value under the first of these names that occurs in the input is used -
importing the field from that input is the same as importing it from the mapping
`{field_name: value}` - and if none occurs it is as if the input were empty. -/
theorem C09_name_precedence (env : Env) (n : Nat) (ctx : Ctx) (c : ClassDef) (mu : Mut)
    (raw : Data) (fd : FieldDef) (hv : ctx.validate = false) (hp : fd.fset = none)
    (ha : AliasesOk ctx.mapping fd) :
    (∀ v, v ≠ .undef → FirstPresent raw (ownNames ctx.mapping fd) v →
      solo env n ctx c mu raw fd = solo env n ctx c mu [(.str fd.name, v)] fd) ∧
    (AllAbsent raw (ownNames ctx.mapping fd) →
      solo env n ctx c mu raw fd = solo env n ctx c mu [] fd) := by
  refine ⟨fun v hv' h => solo_input hv hp ?_, fun h => solo_input hv hp ?_⟩
  · rw [inputValue_first ha hv' h, inputValue_first ha hv' (single_first _ _ _)]
  · rw [inputValue_absent h, inputValue_absent (fun s _ => rfl)]

/-! ## C07 -/

theorem fieldConv_default (env : Env) (n : Nat) (ctx : Ctx) (b : Bool) (t : FType) (o : FieldOpts)
    (dv : Val) (v : Val) :
    fieldConv env n ctx b (.mk t { o with default := dv }) v = fieldConv env n ctx b (.mk t o) v := by
  cases n with
  | zero => rfl
  | succ n => rfl

theorem fieldConv_withDefault (env : Env) (n : Nat) (ctx : Ctx) (b : Bool) (fd : FieldDef)
    (dv : Val) (v : Val) :
    fieldConv env n ctx b (fd.withDefault dv).field v = fieldConv env n ctx b fd.field v := by
  obtain ⟨nm, ⟨t, o⟩, g, s⟩ := fd
  exact fieldConv_default env n ctx b t o dv v

theorem withDefault_inputs (m : Mapping) (raw : Data) (fd : FieldDef) (dv : Val) :
    inputValue raw m (fd.withDefault dv) = inputValue raw m fd := rfl

/-- **C07.** For one field of a plain import:
1. a value supplied in the input (even `None`) is never replaced by the default when
   the import of the field succeeds: any other default would give the same result;
2. an absent field without trusted value, when defaults are enabled, is imported
   exactly as if the input contained the default under the field's name;
3. with defaults disabled the default is irrelevant. -/
theorem C07_defaults_only_for_absent (env : Env) (n : Nat) (ctx : Ctx) (c : ClassDef) (mu : Mut)
    (raw : Data) (fd : FieldDef) (hv : ctx.validate = false) (hp : fd.fset = none)
    (ha : AliasesOk ctx.mapping fd) :
    (∀ v, v ≠ .undef → FirstPresent raw (ownNames ctx.mapping fd) v →
      Succeeded (solo env n ctx c mu raw fd) →
      ∀ dv, solo env n ctx c mu raw (fd.withDefault dv) = solo env n ctx c mu raw fd) ∧
    (AllAbsent raw (ownNames ctx.mapping fd) → ctx.defaults = true →
      fd.field.o.default ≠ .undef → Key.str fd.name ∉ ctx.trusted.keys →
      solo env n ctx c mu raw fd = solo env n ctx c mu [(.str fd.name, fd.field.o.default)] fd) ∧
    (ctx.defaults = false →
      ∀ dv, solo env n ctx c mu raw (fd.withDefault dv) = solo env n ctx c mu raw fd) := by
  have hcomp : ∀ dv, (fd.withDefault dv).field.ty.isCompound = fd.field.ty.isCompound := fun _ => rfl
  refine ⟨?_, ?_, ?_⟩
  · intro v hv' hf hs dv
    have hi := inputValue_first ha hv' hf
    have hu : v.isUndef = false := by
      cases hh : v.isUndef with
      | false => rfl
      | true => exact absurd ((Val.isUndef_iff v).1 hh) hv'
    rw [solo_eq hv c mu raw hp] at hs ⊢
    rw [solo_eq hv c mu raw (fd := fd.withDefault dv) hp]
    unfold fieldRes fieldOutcome at hs ⊢
    simp only [withDefault_inputs, hi, hu, fillValue, Bool.false_and, Bool.false_eq_true, if_false,
      hcomp, fieldConv_withDefault] at hs ⊢
    have hn : (fd.withDefault dv).name = fd.name := rfl
    cases hx : fieldConv env n (if fd.field.ty.isCompound = true then subCtx env ctx fd.name else ctx)
      true fd.field v with
    | ok w => simp only [hn, hx]; split <;> rfl
    | error e =>
      simp only [hx] at hs
      split at hs
      · obtain ⟨d, hd⟩ := hs; cases hd
      · rename_i o ho
        split at ho
        · injection ho with ho
          subst ho
          obtain ⟨d, hd⟩ := hs
          simp [Acc.apply, Dict.set] at hd
        · cases ho
  · intro h hd hne hnt
    rw [solo_eq hv c mu raw hp, solo_eq hv c mu _ hp]
    have h1 : inputValue raw ctx.mapping fd = .undef := inputValue_absent h
    have h2 : inputValue [(.str fd.name, fd.field.o.default)] ctx.mapping fd = fd.field.o.default :=
      inputValue_first ha hne (single_first _ _ _)
    have hnt' : ctx.trusted.has (.str fd.name) = false := by
      cases hh : ctx.trusted.has (.str fd.name) with
      | false => rfl
      | true => exact absurd ((Dict.has_iff _ _).1 hh) hnt
    have hdu : fd.field.o.default.isUndef = false := by
      cases hh : fd.field.o.default.isUndef with
      | false => rfl
      | true => exact absurd ((Val.isUndef_iff _).1 hh) hne
    unfold fieldRes fieldOutcome
    simp only [h1, h2, hnt', Bool.and_false, Bool.false_eq_true, if_false, fillValue, Val.isUndef,
      Bool.true_and, hd, if_true, Bool.false_and]
  · intro hd dv
    rw [solo_eq hv c mu raw hp, solo_eq hv c mu raw (fd := fd.withDefault dv) hp]
    unfold fieldRes fieldOutcome
    simp only [withDefault_inputs, fillValue, hd, Bool.and_false, Bool.false_eq_true, if_false,
      hcomp, fieldConv_withDefault, failRepl, Bool.false_and]
    rfl

/-! ## C10 -/

/-- **C10.** In a plain import, what happens to a field depends only on the input
under the field's own names: if two inputs agree there, the field ends with the
same value and (external names being distinct) the same error. -/
theorem C10_fields_independent (env : Env) (n : Nat) (ctx : Ctx) (c : ClassDef) (mu : Mut)
    (raw raw' : Data) (hc : c.WF) (hv : ctx.validate = false)
    (h1 : ∀ fd ∈ c.fields, fd.fset = none → ¬ Crashed (solo env n ctx c mu raw fd))
    (h2 : ∀ fd ∈ c.fields, fd.fset = none → ¬ Crashed (solo env n ctx c mu raw' fd))
    (fd : FieldDef) (hfd : fd ∈ c.fields) (hp : fd.fset = none)
    (hagree : ∀ s ∈ ownNames ctx.mapping fd, raw.get? (.str s) = raw'.get? (.str s)) :
    (dataOf (runImport env n ctx c mu raw)).get? (.str fd.name) =
      (dataOf (runImport env n ctx c mu raw')).get? (.str fd.name) ∧
    (DistinctExt c → (errorsOf (runImport env n ctx c mu raw)).get? (.str fd.extName) =
      (errorsOf (runImport env n ctx c mu raw')).get? (.str fd.extName)) := by
  have hsolo : solo env n ctx c mu raw fd = solo env n ctx c mu raw' fd :=
    solo_input hv hp (inputValue_congr hagree)
  have hc1 := C01_all_errors_reported env n ctx c mu raw hc hv h1
  have hc2 := C01_all_errors_reported env n ctx c mu raw' hc hv h2
  have nc : ∀ r, (¬ Succeeded r → Failed r) → ¬ Crashed r := by
    rintro r h ⟨e, rfl, hne⟩
    obtain ⟨es, p, he⟩ := h (by rintro ⟨d, hd⟩; cases hd)
    injection he with he
    exact hne es p he
  refine ⟨?_, fun hd => ?_⟩
  · rw [C12_data_of_failed_import env n ctx c mu raw hc hv (nc _ hc1.2.1) fd hfd hp,
      C12_data_of_failed_import env n ctx c mu raw' hc hv (nc _ hc2.2.1) fd hfd hp, hsolo]
  · rw [hc1.2.2.2 hd fd hfd hp, hc2.2.2.2 hd fd hfd hp, hsolo]

/-! ## C11 -/

/-- **C11.** Trusted data: in a finished plain import,
1. a field absent from the input keeps its trusted value exactly (no default, no
   conversion, no error of its own);
2. if the input supplies the field and its import (without any trusted data) succeeds
   with `w`, then `w` is the result, whatever the trusted value was - for scalar
   fields always, for compound fields unless recursive import is on. -/
theorem C11_trusted_survives (env : Env) (n : Nat) (ctx : Ctx) (c : ClassDef) (mu : Mut)
    (raw : Data) (hc : c.WF) (hv : ctx.validate = false)
    (hr : ¬ Crashed (runImport env n ctx c mu raw))
    (fd : FieldDef) (hfd : fd ∈ c.fields) (hp : fd.fset = none) :
    (∀ tv, ctx.trusted.get? (.str fd.name) = some tv → AllAbsent raw (ownNames ctx.mapping fd) →
      (dataOf (runImport env n ctx c mu raw)).get? (.str fd.name) = some tv ∧
      Succeeded (solo env n ctx c mu raw fd)) ∧
    (∀ v w, v ≠ .undef → AliasesOk ctx.mapping fd →
      FirstPresent raw (ownNames ctx.mapping fd) v →
      (ctx.recursive = false ∨ fd.field.ty.isCompound = false) →
      (dataOf (solo env n { ctx with trusted := [] } c mu raw fd)).get? (.str fd.name) = some w →
      Succeeded (solo env n { ctx with trusted := [] } c mu raw fd) →
      (dataOf (runImport env n ctx c mu raw)).get? (.str fd.name) = some w) := by
  constructor
  · intro tv htv habs
    have hres : fieldRes (fieldConv env n) env ctx raw fd = .ok .skip := by
      unfold fieldRes fieldOutcome
      have : ctx.trusted.has (.str fd.name) = true := by simp [Dict.has, htv]
      simp [inputValue_absent habs, this, Val.isUndef]
    have hsolo : solo env n ctx c mu raw fd = .ok ctx.trusted := by
      rw [solo_eq hv c mu raw hp, hres]; rfl
    refine ⟨?_, ⟨_, hsolo⟩⟩
    rw [C12_data_of_failed_import env n ctx c mu raw hc hv hr fd hfd hp, hsolo]
    exact htv
  · intro v w hv' ha hf hrc hw hs
    rw [C12_data_of_failed_import env n ctx c mu raw hc hv hr fd hfd hp]
    have hi := inputValue_first ha hv' hf
    have hu : v.isUndef = false := by
      cases hh : v.isUndef with
      | false => rfl
      | true => exact absurd ((Val.isUndef_iff v).1 hh) hv'
    rw [solo_eq hv c mu raw hp]
    rw [solo_eq (ctx := { ctx with trusted := [] }) hv c mu raw hp] at hw hs
    -- the converter sees the same context up to the trusted data of a leaf
    have hrecEq : ∀ x, fieldConv env n
          (if fd.field.ty.isCompound then subCtx env ctx fd.name else ctx) true fd.field x =
        fieldConv env n (if fd.field.ty.isCompound then subCtx env { ctx with trusted := [] } fd.name
          else { ctx with trusted := [] }) true fd.field x := by
      intro x
      cases hcp : fd.field.ty.isCompound with
      | true =>
        have hr' : ctx.recursive = false := by
          rcases hrc with h | h
          · exact h
          · rw [hcp] at h; cases h
        simp [subCtx, hr']
      | false =>
        simp only [Bool.false_eq_true, if_false]
        cases n with
        | zero => rfl
        | succ n =>
          obtain ⟨nm, ⟨t, o⟩, g, s⟩ := fd
          cases t with
          | leaf l => rfl
          | _ => simp [FType.isCompound] at hcp
    unfold fieldRes fieldOutcome at hw hs ⊢
    simp only [hi, hu, fillValue, Bool.false_and, Bool.false_eq_true, if_false, hrecEq] at hw hs ⊢
    cases hx : fieldConv env n (if fd.field.ty.isCompound = true
      then subCtx env { ctx with trusted := [] } fd.name else { ctx with trusted := [] })
      true fd.field v with
    | ok x =>
      simp only [hx] at hw ⊢
      cases hxu : x.isUndef with
      | true => simp [hxu, Acc.apply, dataOf] at hw
      | false =>
        simp only [hxu, Bool.false_eq_true, if_false, Acc.apply, List.isEmpty_nil, if_true, dataOf,
          Dict.get?_set_self] at hw ⊢
        exact hw
    | error e =>
      simp only [hx] at hs
      split at hs
      · obtain ⟨d, hd⟩ := hs; cases hd
      · rename_i o ho
        split at ho
        · injection ho with ho
          subst ho
          obtain ⟨d, hd⟩ := hs
          simp [Acc.apply, Dict.set] at hd
        · cases ho

/-! ## C12, details -/

/-- **C12 (failed fields).** What a failed field leaves in `partial_data`: nothing new
(the trusted value, if any, stays) for a field that raised a plain field error or a
list/dict error and has no applicable default; the default, if it has one; and the
nested partial data for a nested model. -/
theorem C12_failed_field (env : Env) (n : Nat) (ctx : Ctx) (c : ClassDef) (mu : Mut)
    (raw : Data) (hc : c.WF) (hv : ctx.validate = false)
    (hr : ¬ Crashed (runImport env n ctx c mu raw))
    (fd : FieldDef) (hfd : fd ∈ c.fields) (hp : fd.fset = none) (e : Exc) (v : Val)
    (hvu : v ≠ .undef) (ha : AliasesOk ctx.mapping fd)
    (hin : FirstPresent raw (ownNames ctx.mapping fd) v)
    (he : fieldConv env n (if fd.field.ty.isCompound then subCtx env ctx fd.name else ctx) true
      fd.field v = .error e) :
    (∀ es part, e = .data es part →
      (dataOf (runImport env n ctx c mu raw)).get? (.str fd.name) = some (.dict part)) ∧
    ((∀ es part, e ≠ .data es part) → (ctx.defaults = false ∨ fd.field.o.default = .undef) →
      (dataOf (runImport env n ctx c mu raw)).get? (.str fd.name) =
        ctx.trusted.get? (.str fd.name)) ∧
    ((∀ es part, e ≠ .data es part) → ctx.defaults = true → fd.field.o.default ≠ .undef →
      (dataOf (runImport env n ctx c mu raw)).get? (.str fd.name) = some fd.field.o.default) := by
  have hi := inputValue_first ha hvu hin
  have hu : v.isUndef = false := by
    cases hh : v.isUndef with
    | false => rfl
    | true => exact absurd ((Val.isUndef_iff v).1 hh) hvu
  have hres : fieldRes (fieldConv env n) env ctx raw fd =
      if e.caught then .ok (.fail e.tree (failRepl ctx fd e)) else .error e := by
    unfold fieldRes fieldOutcome
    simp only [hi, hu, fillValue, Bool.false_and, Bool.false_eq_true, if_false, he]
  have hcaught : e.caught = true := by
    cases hcg : e.caught with
    | true => rfl
    | false =>
      exfalso
      rcases run_shape (env := env) (n := n) (raw := raw) mu hc hv with ⟨e', h1, h2⟩ | ⟨os, hos, _⟩
      · exact hr ⟨e', h1, caught_not_data h2⟩
      · have hl : fd ∈ c.loopFields ctx := (mem_plain_loop hv).2 ⟨hfd, hp⟩
        have hmem : fd ∈ os.map (·.1) := by rw [outcomes_map_fst hos]; exact hl
        obtain ⟨⟨fd', o⟩, hpo, rfl⟩ := List.mem_map.1 hmem
        have := outcomes_mem hos _ hpo
        rw [hres, hcg] at this
        cases this
  rw [hcaught, if_pos rfl] at hres
  have hval : (dataOf (runImport env n ctx c mu raw)).get? (.str fd.name) =
      (failRepl ctx fd e).or (ctx.trusted.get? (.str fd.name)) := by
    rw [C12_data_of_failed_import env n ctx c mu raw hc hv hr fd hfd hp, solo_eq hv c mu raw hp, hres]
    simp only [dataOf_ite, apply_get_self, Outcome.stored]
  rw [hval]
  refine ⟨?_, ?_, ?_⟩
  · rintro es part rfl; rfl
  · intro hne hd
    have : failRepl ctx fd e = none := by
      cases e with
      | data es p => exact absurd rfl (hne es p)
      | _ => rcases hd with hd | hd <;> simp [failRepl, hd, Val.isUndef]
    simp [this]
  · intro hne hd hdu
    have hdu' : fd.field.o.default.isUndef = false := by
      cases hh : fd.field.o.default.isUndef with
      | false => rfl
      | true => exact absurd ((Val.isUndef_iff _).1 hh) hdu
    have : failRepl ctx fd e = some fd.field.o.default := by
      cases e with
      | data es p => exact absurd rfl (hne es p)
      | _ => simp [failRepl, hd, hdu']
    simp [this]

/-! ## The hypotheses are met -/

/-- The field `id` of the sample, read from its alias `ident`. -/
def Samples.idField : FieldDef :=
  { name := "id", field := .mk (.leaf Samples.intLeaf) { required := true, deserializeFrom := ["ident"] } }
/-- The field `note` of the sample, which has a default. -/
def Samples.noteField : FieldDef :=
  { name := "note", field := .mk (.leaf Samples.strLeaf) { default := .str "-" } }

theorem Samples.id_from_alias : FirstPresent Samples.good (ownNames .empty Samples.idField) (.int 7) :=
  .later rfl (.here rfl)

example : ValidatorsKeepKeys Samples.order := by intro nf h; cases h
example := (C09_name_precedence Samples.env 5 Samples.ictx Samples.order (.inst []) Samples.good Samples.idField
  rfl rfl (by unfold AliasesOk; decide)).1 (.int 7) (by simp) Samples.id_from_alias
example := (C07_defaults_only_for_absent Samples.env 5 Samples.ictx Samples.order (.inst []) Samples.good Samples.idField
  rfl rfl (by unfold AliasesOk; decide)).1 (.int 7) (by simp) Samples.id_from_alias ⟨_, rfl⟩
example := (C07_defaults_only_for_absent Samples.env 5 Samples.ictx Samples.order (.inst []) Samples.good Samples.noteField
  rfl rfl (by unfold AliasesOk; decide)).2.1 (by intro s hs; simp [ownNames, Samples.noteField, Samples.ictx, Mapping.empty, Mapping.entries] at hs; subst hs; rfl) rfl (by simp [Samples.noteField]) (by simp [Samples.ictx, Dict.keys])
example := C10_fields_independent Samples.env 5 Samples.ictx Samples.order (.inst []) Samples.good
  ((.str "prices", .int 4) :: Samples.good) Samples.order_wf rfl (Samples.none_crashes (by rfl)) (Samples.none_crashes (by rfl))
  Samples.idField (List.mem_cons_self ..) rfl
  (by intro s hs
      have : s = "id" ∨ s = "ident" := by simpa [ownNames, Samples.idField, Samples.ictx, Mapping.empty, Mapping.entries] using hs
      rcases this with rfl | rfl <;> rfl)
example := (C11_trusted_survives Samples.env 5 { Samples.ictx with trusted := [(.str "note", .str "t")] } Samples.order
  (.inst []) Samples.good Samples.order_wf rfl (Samples.not_crashed (by rfl)) Samples.noteField
  (by simp [Samples.order, Samples.noteField]) rfl).1 (.str "t") rfl
  (by intro s hs; simp [ownNames, Samples.noteField, Samples.ictx, Mapping.empty, Mapping.entries] at hs; subst hs; rfl)
example := (C12_failed_field Samples.env 5 Samples.ictx Samples.order (.inst []) Samples.bad Samples.order_wf rfl
  (Samples.not_crashed (by rfl))
  { name := "parent", field := .mk (.model "Order") {} } (by simp [Samples.order]) rfl _ _ (by simp) (by unfold AliasesOk; decide)
  (.here rfl) rfl).1 _ _ rfl

end Verif
