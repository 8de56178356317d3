import Verif.Props.Instance2
import Verif.Props.ModelValidators
import Verif.Props.Export

/-!
# C39, C40: validated data is kept, only validated data is exported
-/
namespace Verif

/-! ## Specification vocabulary -/

/-- The validator never raises a `DataError`. -/
def Validator.NoData (f : Validator) : Prop := ∀ app v es p, f app v ≠ .error (.data es p)

/-- A field that is neither a `ModelType` nor a `PolyModelType`, and whose type and validators raise the
documented errors, not `DataError` (which only models raise). -/
def Field.NotModel (f : Field) : Prop :=
  (∀ g ∈ f.o.validators, Validator.NoData g) ∧
  match f.ty with
  | .leaf l => (∀ app v es p, l.toNative app v ≠ .error (.data es p)) ∧ (∀ g ∈ l.validators, Validator.NoData g) ∧
      (∀ g, l.override = some g → ∀ b app v es p, g b app v ≠ .error (.data es p))
  | .list .. => True
  | .dict .. => True
  | .model _ => False
  | .poly _ => False

/-! ## Lemmas -/

theorem runValidators_noData {app v : Val} {fs : List Validator} (h : ∀ g ∈ fs, Validator.NoData g) (es : Errs) (p : Data) :
    runValidators app v fs ≠ .error (.data es p) := by
  induction fs with
  | nil => intro h; cases h
  | cons f fs ih =>
    have ih := ih fun g hg => h g (List.mem_cons_of_mem _ hg)
    intro hh
    simp only [runValidators] at hh
    cases hf : f app v with
    | ok u => rw [hf] at hh; exact ih hh
    | error e =>
      rw [hf] at hh
      have hne := h f (List.mem_cons_self ..) app v es p
      rw [hf] at hne
      cases e with
      | field k m =>
        cases k with
        | valid =>
          simp only [] at hh
          cases hr : runValidators app v fs with
          | error e' =>
            rw [hr] at hh
            injection hh with hh
            subst hh
            exact ih hr
          | ok o => rw [hr] at hh; cases o <;> cases hh
        | stop => cases hh
        | conv => cases hh
      | data es' p' => simp only [] at hh; injection hh with hh; exact hne (by rw [hh])
      | _ => cases hh

theorem checkChoices_noData (cs : Option (List Val)) : Validator.NoData (checkChoices cs) := by
  intro app v es p h
  unfold checkChoices at h
  split at h
  · cases h
  · split at h <;> cases h

theorem checkLength_noData (a b : Option Nat) : Validator.NoData (checkLength a b) := by
  intro app v es p h
  unfold checkLength at h
  split at h
  · cases h
  · split at h <;> cases h

theorem NotModel.validators {f : Field} (hf : f.NotModel) : ∀ g ∈ f.allValidators, Validator.NoData g := by
  intro g hg
  unfold Field.allValidators at hg
  rcases List.mem_cons.1 hg with rfl | hg
  · exact checkChoices_noData _
  · rcases List.mem_append.1 hg with hg | hg
    · have h2 := hf.2
      cases hty : f.ty with
      | leaf l => rw [hty] at hg h2; exact h2.2.1 g hg
      | list i a b =>
        rw [hty] at hg
        simp only [List.mem_singleton] at hg
        subst hg
        exact checkLength_noData _ _
      | _ => rw [hty] at hg; cases hg
    · exact hf.1 g hg

theorem finishValidation_noData {app v : Val} {fs : List Validator} (h : ∀ g ∈ fs, Validator.NoData g) (es : Errs) (p : Data) :
    finishValidation app v fs ≠ .error (.data es p) := by
  intro hh
  unfold finishValidation at hh
  split at hh
  · rename_i e he
    injection hh with hh
    subst hh
    exact runValidators_noData h _ _ he
  · cases hh
  · cases hh

theorem listLoop_noData {f : Val → R Val} {i : Nat} {xs : List Val} (es : Errs) (p : Data) :
    listLoop f i xs ≠ .error (.data es p) := by
  induction xs generalizing i with
  | nil => intro h; cases h
  | cons x xs ih =>
    intro h
    simp only [listLoop] at h
    cases hf : f x with
    | ok y =>
      rw [hf] at h
      simp only [] at h
      cases hr : listLoop f (i + 1) xs with
      | error e => rw [hr] at h; injection h with h; subst h; exact ih hr
      | ok r => rw [hr] at h; cases h
    | error e =>
      rw [hf] at h
      simp only [] at h
      split at h
      · cases hr : listLoop f (i + 1) xs with
        | error e => rw [hr] at h; injection h with h; subst h; exact ih hr
        | ok r => rw [hr] at h; cases h
      · rename_i hc; injection h with h; subst h; exact hc rfl

theorem dictLoop_noData {f : Val → R Val} {co : Key → R Key} {kvs : List (Key × Val)} {d : Data} {es0 : Errs}
    (es : Errs) (p : Data) : dictLoop f co kvs d es0 ≠ .error (.data es p) := by
  induction kvs generalizing d es0 with
  | nil => intro h; cases h
  | cons kv kvs ih =>
    obtain ⟨k, x⟩ := kv
    intro h
    simp only [dictLoop] at h
    split at h
    · exact ih h
    · split at h
      · exact ih h
      · rename_i hc; injection h with h; subst h; exact hc rfl

theorem fieldConv_noData {env : Env} {n : Nat} {ctx : Ctx} {b : Bool} {f : Field} (hf : f.NotModel) (v : Val)
    (es : Errs) (p : Data) : fieldConv env n ctx b f v ≠ .error (.data es p) := by
  cases n with
  | zero => intro h; cases h
  | succ n =>
    have hconv : ∀ v, convertF (fieldConv env n) env ctx f v ≠ .error (.data es p) := by
      intro v h
      have h2 := hf.2
      unfold convertF at h
      cases hty : f.ty with
      | leaf l => rw [hty] at h h2; exact h2.1 _ _ _ _ h
      | list i a b' =>
        rw [hty] at h
        simp only [] at h
        split at h
        · cases h
        · unfold listConv at h
          split at h
          · rename_i e he; injection h with h; subst h; exact listLoop_noData _ _ he
          · split at h <;> cases h
      | dict i co =>
        rw [hty] at h
        simp only [] at h
        split at h
        · unfold dictConv at h
          split at h
          · rename_i e he; injection h with h; subst h; exact dictLoop_noData _ _ he
          · split at h <;> cases h
        · cases h
      | model _ => rw [hty] at h2; exact h2
      | poly _ => rw [hty] at h2; exact h2
    intro h
    simp only [fieldConv, fieldConvF] at h
    split at h
    · cases h
    · split at h
      · cases h
      · split at h
        · exact hconv v h
        · unfold validateF at h
          split at h
          · rename_i g hg
            have h2 := hf.2
            cases hty : f.ty with
            | leaf l => rw [hty] at hg h2; exact h2.2.2 g hg _ _ _ _ _ h
            | _ => rw [hty] at hg; cases hg
          · split at h
            · split at h
              · rename_i e he; injection h with h; subst h; exact hconv _ he
              · exact finishValidation_noData (NotModel.validators hf) _ _ h
            · split at h
              · split at h
                · rename_i e he; injection h with h; subst h; exact hconv _ he
                · exact finishValidation_noData (NotModel.validators hf) _ _ h
              · exact finishValidation_noData (NotModel.validators hf) _ _ h

/-- A field reported by a failed import has no new value in the partial data. -/
theorem importBody_failed {env : Env} {n : Nat} {ctx : Ctx} {c : ClassDef} (hc : c.WF) (hx : DistinctExt c) {raw p : Data}
    {es : Errs} (hstrict : ctx.strict = false) (hdef : ctx.defaults = false) (hval : ctx.validate = true)
    (h : importBody (fieldConv env n) env ctx c raw [] = .error (.data es p)) {fd : FieldDef} (hfd : fd ∈ c.fields)
    (hnm : fd.field.NotModel) (he : (Dict.get? es (.str fd.extName)).isSome) :
    Dict.get? p (.str fd.name) = Dict.get? ctx.trusted (.str fd.name) := by
  rw [importBody_eq _ _ _ _ hc] at h
  have hl : c.loopFields ctx = c.fields := by unfold ClassDef.loopFields; rw [hval]; rfl
  cases hos : outcomes (fieldRes (fieldConv env n) env ctx raw) (c.loopFields ctx) with
  | error e =>
    rw [hos] at h
    injection h with h
    subst h
    obtain ⟨_, _, he'⟩ := outcomes_error hos
    have := fieldRes_error he'
    simp [Exc.caught] at this
  | ok os =>
    rw [hos] at h
    simp only [] at h
    have hmem : fd ∈ os.map (·.1) := by rw [outcomes_map_fst hos, hl]; exact hfd
    obtain ⟨⟨fd', o⟩, hpo, heq⟩ := List.mem_map.1 hmem
    simp only [] at heq
    subst heq
    have ho := outcomes_mem hos _ hpo
    have hnd : (os.map (·.1.extName)).Nodup := by
      have := outcomes_map_fst hos
      have h2 : os.map (·.1.extName) = (os.map (·.1)).map (·.extName) := by simp [List.map_map, Function.comp_def]
      rw [h2, this, hl]
      exact hx
    have hstart : startErrs ctx c raw [] = [] := by
      unfold startErrs rogueKeys
      rw [hstrict]
      rfl
    have hdat := importBody_data hc hos (by rw [hl]; exact hfd) (startErrs ctx c raw []) ho
    have herr := applyAll_errs_get os ⟨ctx.trusted, startErrs ctx c raw []⟩ hnd hpo (by rw [hstart]; simp)
    split at h
    · cases h
    · injection h with h
      injection h with h1 h2
      rw [h1] at herr
      simp only [] at herr ho
      rw [herr] at he
      rw [← h2, hdat]
      cases o with
      | skip => rfl
      | store v => cases he
      | fail t r =>
        have : r = none := by
          unfold fieldRes fieldOutcome at ho
          simp only [] at ho
          split at ho
          · cases ho
          · split at ho
            · split at ho <;> cases ho
            · rename_i e hce
              split at ho
              · injection ho with ho
                injection ho with _ ho
                rw [← ho]
                unfold failRepl
                cases e with
                | data es' p' => exact absurd hce (fieldConv_noData hnm _ _ _)
                | _ => simp [hdef]
              · cases ho
        rw [this]
        rfl

/-- A validation that really ran and failed. -/
theorem instValidate_fails {env : Env} {n : Nat} {c : ClassDef} {I I' : Inst}
    (hraw : I.raw = []) {ctx : Ctx} {es : Errs} {p : Data}
    (h : instValidate env n c I ctx = (.error (.data es p), I')) :
    runValidate env n (I.convertCtx { ctx with validate := true, trusted := [] }) c (.inst I.content) I.converted =
        .error (.data es p) ∧
      I' = { raw := [], converted := [], valid := I.valid.update p, stale := some (I.stale.getD I.valid) } := by
  unfold instValidate at h
  split at h
  · injection h with h; cases h
  · unfold instConvert at h
    simp only [if_true] at h
    have hI : ({ I with raw := [] } : Inst) = I := by cases I; simp_all
    have hsrc : I.source [] = I.converted := by simp [Inst.source, hraw]
    rw [hI, hsrc] at h
    have hst := afterConvert_valid env n (I.convertCtx { ctx with validate := true, trusted := [] }) c I []
    have hrw := afterConvert_raw env n (I.convertCtx { ctx with validate := true, trusted := [] }) c I []
    generalize (I.afterConvert env n (I.convertCtx { ctx with validate := true, trusted := [] }) c []) = I1 at *
    cases hr : runValidate env n (I.convertCtx { ctx with validate := true, trusted := [] }) c (.inst I.content) I.converted with
    | ok d => rw [hr] at h; simp only [] at h; injection h with h; cases h
    | error e =>
      rw [hr] at h
      cases e with
      | data es' p' =>
        simp only [] at h
        injection h with h1 h2
        injection h1 with h1
        injection h1 with h1 h3
        subst h1 h3
        refine ⟨rfl, ?_⟩
        rw [← h2]
        simp only [Inst.setValid]
        rw [hrw, hst.1, hst.2]
      | _ => simp only [] at h; injection h with h; cases h

/-! ## C39 -/

/-- **C39.** On every instance created without `lazy=True`, after any history: if `m.validate()` raises
`DataError`, a non-model field that is named in the error reads afterwards exactly its last *validated* value (and
is undefined if it had none); the pending values are gone. (`apply_defaults` off, as by default.) -/
theorem C39_failed_validation_keeps_valid (env : Env) (n : Nat) (c : ClassDef) (hc : c.WF) (hx : DistinctExt c)
    (hs : c.Simple) (hp : PureValidators c) (I I' : Inst) (hI : Reachable env n c true I) (ctx : Ctx)
    (hstrict : ctx.strict = false) (hdef : ctx.defaults = false) (es : Errs) (p : Data)
    (h : instValidate env n c I ctx = (.error (.data es p), I')) (fd : FieldDef) (hfd : fd ∈ c.fields)
    (hnm : fd.field.NotModel) (he : (Dict.get? es (.str fd.extName)).isSome) :
    getAttr c I' fd.name = definedOr (Dict.get? I.valid (.str fd.name)) := by
  obtain ⟨hr, rfl⟩ := instValidate_fails hI.raw h
  have hk : (I.convertCtx { ctx with validate := true, trusted := [] }).strict = false ∧
      (I.convertCtx { ctx with validate := true, trusted := [] }).defaults = false ∧
      (I.convertCtx { ctx with validate := true, trusted := [] }).validate = true ∧
      (I.convertCtx { ctx with validate := true, trusted := [] }).trusted = [] := ⟨hstrict, hdef, rfl, rfl⟩
  generalize (I.convertCtx { ctx with validate := true, trusted := [] }) = k at *
  obtain ⟨k1, k2, k3, k4⟩ := hk
  have hcr : ¬ Crashed (runValidate env n k c (.inst I.content) I.converted) := by
    rintro ⟨e, he', hne⟩
    rw [hr] at he'
    injection he' with he'
    exact hne _ _ he'.symm
  have key := C20_model_validators env n k c I.content I.converted hc hx hp (fun fd h => (hs fd h).2) k3
    (by rw [k4]; exact nodup_nil) hcr fd hfd _ rfl
  rw [hr] at key
  have hpn : Dict.get? p (.str fd.name) = none := by
    by_cases hrej : ∃ t, Rejects c I.content k.app (dataOf (runImport env n k c (.inst I.content) I.converted)) fd t
    · obtain ⟨t, ht⟩ := hrej
      exact (key.1 t ht).2
    · have h2 := key.2 (fun t ht => hrej ⟨t, ht⟩)
      simp only [errorsOf, dataOf] at h2
      rw [h2.2]
      rw [h2.1] at he
      have himp : runImport env n k c (.inst I.content) I.converted =
          importBody (fieldConv env n) env k c (I.converted.update (c.view I.content)) [] := by
        unfold runImport importLoop
        rw [k3, simple_mutate hs]
        rfl
      rw [himp] at he ⊢
      cases hb : importBody (fieldConv env n) env k c (I.converted.update (c.view I.content)) [] with
      | ok d => rw [hb] at he; cases he
      | error e =>
        rw [hb] at he
        cases e with
        | data es' p' =>
          have := importBody_failed hc hx k1 k2 k3 hb hfd hnm he
          rw [k4] at this
          exact this
        | _ => cases he
  have hpnd : p.Nodup := by
    have := runValidate_nodup (env := env) (n := n) (ctx := k) (c := c) (mu := .inst I.content) (raw := I.converted) hc
      hp.nodup (by rw [k4]; exact nodup_nil)
    rw [hr] at this
    exact this
  rw [getAttr_plain hc (Simple.plain hs hfd), lookup_noraw rfl]
  simp only []
  rw [Dict.get?_update _ _ hpnd, hpn]
  rfl

open Samples in
/-- **C39, counterexample** when defaults are applied: an `Order` whose validated `note` is `'x'` gets the invalid note
`None`-less list `[]`; a validation with `apply_defaults` fails, and `note` reads the default `'-'`, not `'x'`. -/
theorem C39_counterexample_defaults :
    ∃ I es p, instInit env 5 order [(.str "id", .int 1), (.str "note", .str "x")] [] false newCtx = .ok I ∧
      let J := runOps env 5 order I [.validate {}, .set "note" (.list [])]
      getAttr order (instValidate env 5 order I {}).2 "note" = .ok (.str "x") ∧
      (instValidate env 5 order J { defaults := true }).1 = .error (.data es p) ∧
      getAttr order (instValidate env 5 order J { defaults := true }).2 "note" = .ok (.str "-") :=
  ⟨_, _, _, rfl, rfl, rfl, rfl⟩

open Samples in
/-- **C39, counterexample** for nested models: the validated `parent` instance is replaced by a plain dict with the valid
part of the rejected value. -/
theorem C39_counterexample_nested :
    ∃ I es p d, instInit env 5 order [(.str "id", .int 1), (.str "parent", .dict [(.str "id", .int 2)])] [] false newCtx = .ok I ∧
      let J := runOps env 5 order I [.validate {}, .set "parent" (.dict [(.str "note", .str "new")])]
      getAttr order (instValidate env 5 order I {}).2 "parent" = .ok (.inst "Order" d) ∧
      Dict.get? d (.str "id") = some (.int 2) ∧
      (instValidate env 5 order J {}).1 = .error (.data es p) ∧
      getAttr order (instValidate env 5 order J {}).2 "parent" = .ok (.dict [(.str "items", .none), (.str "prices", .none),
        (.str "note", .str "new"), (.str "parent", .none)]) :=
  ⟨_, _, _, _, rfl, rfl, rfl, rfl, rfl⟩

/-! ## C40 -/

/-- What may appear as the value of a field in serialized output: a value that passed the field's own validation
and was not rejected by the model-level validator of the field, the field's default, or the value the instance
held as valid (from an earlier validation or from trusted data). -/
inductive Trustworthy (env : Env) (n : Nat) (c : ClassDef) (I : Inst) (fd : FieldDef) (v : Val) : Prop
  | validated {ctx : Ctx} {x : Val} {d : Data} (hc : ctx.conv = .val) (hcv : ctx.convert = true)
      (hp : ctx.partial_ = false) (h : fieldConv env n ctx true fd.field x = .ok v)
      (hd : Dict.get? d (.str fd.name) = some v) (hr : ∀ t, ¬ Rejects c I.content ctx.app d fd t)
  | default (h : v = fd.field.o.default)
  | earlier (h : Dict.get? I.valid (.str fd.name) = some v)

/-- A validation that really ran and did not crash. -/
theorem instValidate_ran {env : Env} {n : Nat} {c : ClassDef} {I I' : Inst} (hraw : I.raw = []) {ctx : Ctx} {r : R Unit}
    (hpart : ctx.partial_ = false) (hr : r = .ok () ∨ ∃ es p, r = .error (.data es p))
    (h : instValidate env n c I ctx = (r, I')) :
    ¬ Crashed (runValidate env n (I.convertCtx { ctx with validate := true, trusted := [] }) c (.inst I.content) I.converted) ∧
      I'.raw = [] ∧ I'.converted = [] ∧
      (I'.valid = dataOf (runValidate env n (I.convertCtx { ctx with validate := true, trusted := [] }) c (.inst I.content) I.converted) ∨
       I'.valid = I.valid.update (dataOf (runValidate env n (I.convertCtx { ctx with validate := true, trusted := [] }) c
          (.inst I.content) I.converted))) := by
  unfold instValidate at h
  rw [hpart] at h
  simp only [Bool.and_false, Bool.false_eq_true, if_false] at h
  obtain ⟨cv, tr, mp, pa, st, ini, de, co, va, oo, re, app⟩ := ctx
  simp only [] at hpart
  subst hpart
  unfold instConvert at h
  simp only [if_true] at h
  have hI : ({ I with raw := [] } : Inst) = I := by cases I; simp_all
  have hsrc : I.source [] = I.converted := by simp [Inst.source, hraw]
  rw [hI, hsrc] at h
  simp only []
  generalize hk : I.convertCtx ⟨cv, [], mp, false, st, ini, de, co, true, oo, re, app⟩ = k at *
  have hst := afterConvert_valid env n k c I []
  have hrw := afterConvert_raw env n k c I []
  generalize I.afterConvert env n k c [] = I1 at *
  cases hrr : runValidate env n k c (.inst I.content) I.converted with
  | ok d =>
    rw [hrr] at h
    simp only [] at h
    injection h with _ h
    subst h
    refine ⟨?_, hrw, rfl, Or.inl rfl⟩
    rintro ⟨e, he, _⟩; cases he
  | error e =>
    rw [hrr] at h
    cases e with
    | data es p =>
      simp only [] at h
      injection h with _ h
      subst h
      refine ⟨?_, hrw, rfl, Or.inr ?_⟩
      · rintro ⟨e, he, hne⟩; injection he with he; exact hne _ _ he.symm
      · simp only [Inst.setValid]; rw [hst.1]; rfl
    | _ =>
      simp only [] at h
      injection h with h _
      subst h
      rcases hr with hr | ⟨_, _, hr⟩ <;> cases hr

/-- Where a value stored by the import body comes from. -/
theorem importBody_source {env : Env} {n : Nat} {ctx : Ctx} {c : ClassDef} (hc : c.WF) {raw : Data}
    (htr : ctx.trusted = []) (hval : ctx.validate = true) {fd : FieldDef} (hfd : fd ∈ c.fields)
    (hnm : fd.field.NotModel) {v : Val}
    (h : Dict.get? (dataOf (importBody (fieldConv env n) env ctx c raw [])) (.str fd.name) = some v) :
    (∃ x, fieldConv env n (fieldCtx env ctx fd) true fd.field x = .ok v) ∨ v = fd.field.o.default := by
  have hl : c.loopFields ctx = c.fields := by unfold ClassDef.loopFields; rw [hval]; rfl
  rw [importBody_eq _ _ _ _ hc] at h
  cases hos : outcomes (fieldRes (fieldConv env n) env ctx raw) (c.loopFields ctx) with
  | error e =>
    rw [hos] at h
    obtain ⟨_, _, he'⟩ := outcomes_error hos
    have := fieldRes_error he'
    cases e with
    | data es p => simp [Exc.caught] at this
    | _ => cases h
  | ok os =>
    rw [hos] at h
    have hmem : fd ∈ os.map (·.1) := by rw [outcomes_map_fst hos, hl]; exact hfd
    obtain ⟨⟨fd', o⟩, hpo, heq⟩ := List.mem_map.1 hmem
    simp only [] at heq
    subst heq
    have ho := outcomes_mem hos _ hpo
    have hdat := importBody_data hc hos (by rw [hl]; exact hfd) (startErrs ctx c raw []) ho
    rw [htr] at hdat
    simp only [] at h ho
    have hst : o.stored = some v := by
      rw [htr] at h
      split at h <;>
      · simp only [dataOf] at h
        rw [hdat] at h
        simp only [Dict.get?_nil, Option.or_none] at h
        exact h
    unfold fieldRes fieldOutcome at ho
    simp only [] at ho
    split at ho
    · cases ho; cases hst
    · split at ho
      · rename_i w hw
        split at ho
        · cases ho; cases hst
        · injection ho with ho; subst ho; cases hst; exact Or.inl ⟨_, hw⟩
      · rename_i e hce
        split at ho
        · injection ho with ho
          subst ho
          simp only [Outcome.stored] at hst
          right
          unfold failRepl at hst
          cases e with
          | data es' p' => exact absurd hce (fieldConv_noData hnm _ _ _)
          | _ => simp only [] at hst; split at hst <;> cases hst; rfl
        · cases ho

/-- **C40.** On every instance created without `lazy=True`, after any history: if `m.serialize()` succeeds, its
output is the export of data in which every non-model field's value passed validation, or is the field's
default, or was already valid before — never a pending value that was rejected.  Afterwards every field that had a
value reads exactly that value, pending or not. -/
theorem C40_serialize_only_valid (env : Env) (n : Nat) (c : ClassDef) (hc : c.WF) (hx : DistinctExt c)
    (hs : c.Simple) (hp : PureValidators c) (I I' : Inst) (hI : Reachable env n c true I) (ectx : ECtx) (out : Data)
    (h : instSerialize env n c I ectx = (.ok out, I')) :
    (∃ V, runExport env n ectx c (.inst V) = .ok out ∧
      ∀ fd ∈ c.fields, fd.field.NotModel → ∀ v, Dict.get? V (.str fd.name) = some v → Trustworthy env n c I fd v) ∧
    (∀ fd ∈ c.fields, ∀ v, getAttr c I fd.name = .ok v → getAttr c I' fd.name = .ok v) := by
  have hwf := hI.wf hc hp.nodup
  unfold instSerialize at h
  simp only [] at h
  cases hv : instValidate env n c I { defaults := true, validate := true } with
  | mk r I1 =>
    have hcases : r = .ok () ∨ ∃ es p, r = .error (.data es p) := by
      rw [hv] at h
      cases r with
      | ok u => exact Or.inl rfl
      | error e =>
        cases e with
        | data es p => exact Or.inr ⟨_, _, rfl⟩
        | _ => simp only [] at h; injection h with h; cases h
    obtain ⟨hcr, h1, h2, h3⟩ := instValidate_ran hI.raw rfl hcases hv
    have hexp : instExport env n c I1 ectx = .ok out ∧
        I' = { I1 with converted := (I.afterConvert env n (I.convertCtx { defaults := true, validate := true }) c []).converted } := by
      rw [hv] at h
      rcases hcases with rfl | ⟨es, p, rfl⟩ <;>
      · simp only [] at h
        cases he : instExport env n c I1 ectx with
        | error e => rw [he] at h; injection h with h; cases h
        | ok d =>
          rw [he] at h
          simp only [] at h
          injection h with ha hb
          injection ha with ha
          subst ha
          exact ⟨rfl, hb.symm⟩
    have hcont : I1.content = I1.valid := by unfold Inst.content; rw [h1, h2]; rfl
    constructor
    · refine ⟨I1.valid, ?_, ?_⟩
      · rw [← hcont]; exact hexp.1
      · intro fd hfd hnm v hget
        have hk : ∃ k, k = I.convertCtx { defaults := true, validate := true, trusted := [] } ∧ k.validate = true ∧
          k.trusted = [] ∧ k.conv = .val ∧ k.convert = true ∧ k.partial_ = false := ⟨_, rfl, rfl, rfl, rfl, rfl, rfl⟩
        obtain ⟨k, hkdef, k1, k2, k3, k4, k5⟩ := hk
        simp only [] at hcr h3
        rw [← hkdef] at hcr h3
        have hpnd : (dataOf (runValidate env n k c (.inst I.content) I.converted)).Nodup :=
          runValidate_nodup hc hp.nodup (by rw [k2]; exact nodup_nil)
        have hsrc : Dict.get? (dataOf (runValidate env n k c (.inst I.content) I.converted)) (.str fd.name) = some v ∨
            Dict.get? I.valid (.str fd.name) = some v := by
          rcases h3 with h3 | h3
          · rw [h3] at hget; exact Or.inl hget
          · rw [h3, Dict.get?_update _ _ hpnd] at hget
            cases hd : Dict.get? (dataOf (runValidate env n k c (.inst I.content) I.converted)) (.str fd.name) with
            | some w => rw [hd] at hget; exact Or.inl hget
            | none => rw [hd] at hget; exact Or.inr hget
        rcases hsrc.symm with hsrc | hsrc
        · exact .earlier hsrc
        have key := C20_model_validators env n k c I.content I.converted hc hx hp (fun fd h => (hs fd h).2) k1
          (by rw [k2]; exact nodup_nil) hcr fd hfd _ rfl
        have hnr : ∀ t, ¬ Rejects c I.content k.app (dataOf (runImport env n k c (.inst I.content) I.converted)) fd t := by
          intro t ht
          rw [(key.1 t ht).2] at hsrc
          cases hsrc
        have h4 := (key.2 hnr).2
        rw [hsrc] at h4
        have himp : runImport env n k c (.inst I.content) I.converted =
            importBody (fieldConv env n) env k c (I.converted.update (c.view I.content)) [] := by
          unfold runImport importLoop
          rw [k1, simple_mutate hs]
          rfl
        rw [himp] at h4 hnr
        rcases importBody_source hc k2 k1 hfd hnm h4.symm with ⟨x, hx⟩ | hdf
        · have happ : (fieldCtx env k fd).app = k.app ∧ (fieldCtx env k fd).conv = .val ∧ (fieldCtx env k fd).convert = true ∧
              (fieldCtx env k fd).partial_ = false := by
            unfold fieldCtx
            split
            · exact ⟨rfl, k3, k4, k5⟩
            · exact ⟨rfl, k3, k4, k5⟩
          exact .validated happ.2.1 happ.2.2.1 happ.2.2.2 hx h4.symm (by rw [happ.1]; exact hnr)
        · exact .default hdf
    · intro fd hfd v hg
      have hpl := Simple.plain hs hfd
      rw [getAttr_plain hc hpl] at hg ⊢
      obtain ⟨hl, hu⟩ := definedOr_ok.1 hg
      refine definedOr_ok.2 ⟨?_, hu⟩
      rw [hexp.2, lookup_noraw (by exact h1)]
      simp only []
      have haft : (I.afterConvert env n (I.convertCtx { defaults := true, validate := true }) c []).converted =
          I.converted.update (c.view I.content) := by
        unfold Inst.afterConvert
        have : (I.convertCtx { defaults := true, validate := true }).validate = true := rfl
        rw [this]
        simp only [if_true, hI.raw, List.isEmpty_nil, Bool.true_and, simple_setterWrites hs, simple_copied hs]
        congr 2
        cases I
        have := hI.raw
        simp_all
      rw [haft, Dict.get?_update _ _ (view_nodup hc _), view_get hc hfd hpl.set hpl.get, Inst.content_get hwf, hl]
      rfl

open Samples in
/-- **C40, counterexample** for `lazy=True`: `m = Item({'qty': -1}, lazy=True); m.serialize()` throws the pending value away. -/
theorem C40_counterexample_lazy :
    ∃ I out I', instInit env 5 item [(.str "qty", .int (-1))] [] true newCtx = .ok I ∧
      getAttr item I "qty" = .ok (.int (-1)) ∧
      instSerialize env 5 item I {} = (.ok out, I') ∧ Undefined item I' "qty" :=
  ⟨_, _, _, rfl, rfl, rfl, rfl⟩

open Samples in
/-- `serialize()` is not read-only even when it succeeds: `m = Order({'id': 1}, init=False)`, `m.note` is undefined
before and `'-'` after `m.serialize()`. -/
theorem C40_counterexample_readonly :
    ∃ I out I', instInit env 5 order [(.str "id", .int 1)] [] false { partial_ := true } = .ok I ∧ Undefined order I "note" ∧
      instSerialize env 5 order I {} = (.ok out, I') ∧ getAttr order I' "note" = .ok (.str "-") :=
  ⟨_, _, _, rfl, rfl, rfl, rfl⟩

/-- A class with a validator that raises `TypeError`. -/
def Samples.crashing : ClassDef where
  name := "Crashing"
  fields := [{ name := "f", field := .mk (.leaf Samples.intLeaf) { validators := [fun _ _ => .error (.other "TypeError")] } }]

open Samples in
/-- **C40, counterexample** for crashing validators: `m.serialize()` raises `TypeError` and the pending data is lost. -/
theorem C40_counterexample_crash :
    ∃ I I', instInit env 5 crashing [(.str "f", .int 1)] [] false newCtx = .ok I ∧
      getAttr crashing I "f" = .ok (.int 1) ∧
      instSerialize env 5 crashing I {} = (.error (.other "TypeError"), I') ∧ Undefined crashing I' "f" :=
  ⟨_, _, rfl, rfl, rfl, rfl⟩

/-! ## C76 -/

/-- **C76.** On every instance created without `lazy=True`, after any history: if `m.validate()` succeeds (and it has
something to do: `partial` is off or there is pending data), then every field that had a value `x` was validated
and reads the result of validating `x`. -/
theorem C76_validate_checks_current_values (env : Env) (n : Nat) (c : ClassDef) (hc : c.WF) (hs : c.Simple)
    (hp : PureValidators c) (I I' : Inst) (hI : Reachable env n c true I) (ctx : Ctx)
    (hdo : ctx.partial_ = false ∨ I.converted ≠ []) (h : instValidate env n c I ctx = (.ok (), I'))
    (fd : FieldDef) (hfd : fd ∈ c.fields) :
    ∀ x, getAttr c I fd.name = .ok x → ∃ w ctx', ctx'.conv = .val ∧ ctx'.convert = ctx.convert ∧ ctx'.app = ctx.app ∧
      ctx'.partial_ = ctx.partial_ ∧ fieldConv env n ctx' true fd.field x = .ok w ∧
      (w ≠ .undef → getAttr c I' fd.name = .ok w) := by
  have hwf := hI.wf hc hp.nodup
  have hpl := Simple.plain hs hfd
  have hrun : (I.converted.isEmpty && ctx.partial_) = false := by
    rcases hdo with h | h
    · simp [h]
    · cases hh : I.converted with
      | nil => exact absurd hh h
      | cons => rfl
  obtain ⟨d, h1, h2, rfl⟩ := instValidate_ok hs hp hI.raw hrun h
  have hkk : (I.convertCtx { ctx with validate := true, trusted := [] }).conv = .val ∧
    (I.convertCtx { ctx with validate := true, trusted := [] }).convert = ctx.convert ∧
    (I.convertCtx { ctx with validate := true, trusted := [] }).app = ctx.app ∧
    (I.convertCtx { ctx with validate := true, trusted := [] }).partial_ = ctx.partial_ ∧
    (I.convertCtx { ctx with validate := true, trusted := [] }).trusted = [] ∧
    (I.convertCtx { ctx with validate := true, trusted := [] }).init = ctx.init ∧
    (I.convertCtx { ctx with validate := true, trusted := [] }).defaults = ctx.defaults ∧
    (I.convertCtx { ctx with validate := true, trusted := [] }).mapping = ctx.mapping := by
    simp [Inst.convertCtx, hI.raw]
  generalize I.convertCtx { ctx with validate := true, trusted := [] } = k at *
  obtain ⟨k1, k2, k3, k4, k5, k6, k7, k8⟩ := hkk
  have hf : (fieldCtx env k fd).conv = .val ∧ (fieldCtx env k fd).convert = ctx.convert ∧ (fieldCtx env k fd).app = ctx.app ∧
      (fieldCtx env k fd).partial_ = ctx.partial_ := by
    unfold fieldCtx
    split <;> exact ⟨k1, k2, k3, k4⟩
  have hread : ∀ o, Dict.get? d (.str fd.name) = o →
      getAttr c ({ raw := [], converted := [], valid := d, stale := some (I.stale.getD I.valid) } : Inst) fd.name = definedOr o := by
    intro o ho
    rw [getAttr_plain hc hpl, lookup_noraw rfl]
    simp only []
    rw [ho]
    rfl
  have hraw : rawValue (I.converted.update (c.view I.content)) fd.name = (I.lookup (.str fd.name)).getD .undef := by
    rw [rawValue_update_view hc hpl, Inst.content_get hwf, lookup_noraw hI.raw]
    cases Dict.get? I.converted (.str fd.name) <;> cases Dict.get? I.valid (.str fd.name) <;> rfl
  intro x hx
  rw [getAttr_plain hc hpl] at hx
  obtain ⟨hl, hu⟩ := definedOr_ok.1 hx
  rw [hl] at hraw
  obtain ⟨w, hw, hd⟩ := body_value hc hpl hu hraw h1
  refine ⟨w, _, hf.1, hf.2.1, hf.2.2.1, hf.2.2.2, hw, ?_⟩
  intro hwu
  rw [hread _ hd, isUndef_false hwu]
  exact definedOr_ok.2 ⟨rfl, hwu⟩

open Samples in
/-- **C76, counterexample** for `lazy=True`: `Item({'qty': -1}, lazy=True).validate(partial=True)` silently checks nothing
(`validate()` raises). -/
theorem C76_counterexample_lazy :
    ∃ I es p, instInit env 5 item [(.str "qty", .int (-1))] [] true newCtx = .ok I ∧
      instValidate env 5 item I { partial_ := true } = (.ok (), I) ∧
      (instValidate env 5 item I {}).1 = .error (.data es p) :=
  ⟨_, _, _, rfl, rfl, rfl⟩

/-! ## The hypotheses are met -/

namespace Samples

theorem qty_notModel : Field.NotModel (.mk (.leaf intLeaf) { required := true }) := by
  refine ⟨(by intro g h; cases h), ?_, ?_, ?_⟩
  · intro app v es p h; have := intLeaf_err h; cases this
  · intro g hg app v es p h
    simp only [intLeaf, List.mem_singleton] at hg
    subst hg
    simp only [] at h
    split at h
    · split at h <;> cases h
    · cases h
  · intro g h; cases h

/-- `m.validate(); m.qty = -7` -/
def itemN : Inst :=
  { converted := [(.str "qty", .int (-7))], valid := [(.str "qty", .int 1), (.str "tag", .str "a")], stale := some [] }
theorem itemN_reachable : Reachable env 5 item true itemN :=
  .step (.set "qty" (.int (-7))) (.step (.validate {}) itemI_reachable)

example : ∃ es p I', instValidate env 5 item itemN {} = (.error (.data es p), I') ∧
    (Dict.get? es (.str "qty")).isSome ∧ getAttr item I' "qty" = .ok (.int 1) :=
  ⟨_, _, _, rfl, rfl, C39_failed_validation_keeps_valid env 5 item item_wf item_distinct (item_stable true).simple
    (item_stable true).pure itemN _ itemN_reachable {} rfl rfl _ _ rfl _ qty_plain.mem qty_notModel rfl⟩

example : ∃ out I', instSerialize env 5 item itemN {} = (.ok out, I') ∧ getAttr item I' "qty" = .ok (.int (-7)) :=
  ⟨_, _, rfl, (C40_serialize_only_valid env 5 item item_wf item_distinct (item_stable true).simple
    (item_stable true).pure itemN _ itemN_reachable {} _ rfl).2 _ qty_plain.mem _ rfl⟩

example : ∃ w ctx', ctx'.conv = .val ∧ ctx'.convert = true ∧ ctx'.app = ({} : Ctx).app ∧ ctx'.partial_ = false ∧
    fieldConv env 5 ctx' true (.mk (.leaf intLeaf) { required := true }) (.int 7) = .ok w ∧
    (w ≠ .undef → getAttr item (instValidate env 5 item itemJ {}).2 "qty" = .ok w) :=
  C76_validate_checks_current_values env 5 item item_wf (item_stable true).simple (item_stable true).pure itemJ _
    itemJ_reachable {} (Or.inl rfl) rfl _ qty_plain.mem (.int 7) rfl

end Samples

end Verif
