import Verif.Props.Instance
import Verif.Props.Idempotent

/-!
# C37-C40: validating operations of an instance
-/
namespace Verif

/-! ## Lemmas -/

theorem Simple.plain {c : ClassDef} (hs : c.Simple) {fd : FieldDef} (h : fd ∈ c.fields) : Plain c fd :=
  ⟨h, (hs fd h).1, (hs fd h).2⟩

theorem simple_mutate {rec : Rec} {ctx : Ctx} {c : ClassDef} (hs : c.Simple) (d raw : Data) :
    runMutate rec ctx c (.inst d) raw = .ok ⟨[], d, raw.update (c.view d)⟩ := by
  simp [runMutate, simple_settable hs, runSetters]

theorem simple_runValidate {env : Env} {n : Nat} {ctx : Ctx} {c : ClassDef} (hs : c.Simple) (hp : PureValidators c)
    {m raw d : Data} : runValidate env n ctx c (.inst m) raw = .ok d ↔
      importBody (fieldConv env n) env ctx c (raw.update (c.view m)) [] = .ok d ∧
        validateModel c m ctx.app d = .ok ([], d) := by
  unfold runValidate
  constructor
  · intro h
    obtain ⟨m', d0, h1, h2, h3⟩ := validateFn_ok h
    rw [simple_mutate hs] at h1
    injection h1 with h1
    subst h1
    have := validateModel_pure hp h3
    subst this
    exact ⟨h2, h3⟩
  · rintro ⟨h1, h2⟩
    unfold validateFn
    rw [simple_mutate hs]
    simp only [h1, h2]
    rfl

theorem simple_copied {env : Env} {n : Nat} {ctx : Ctx} {c : ClassDef} (hs : c.Simple) (raw content : Data) :
    copied env n ctx c raw content = c.view content := by
  simp [copied, simple_settable hs, runSetters]

theorem simple_setterWrites {env : Env} {n : Nat} {ctx : Ctx} {c : ClassDef} (hs : c.Simple) (raw conv : Data) :
    setterWrites env n ctx c raw conv = conv := by
  simp [setterWrites, simple_settable hs, setterSteps, Dict.update]

/-- The context of the first phase of `import_data(..., validate=True)`. -/
def ivCtx1 (c : ClassDef) (I : Inst) (ctx : Ctx) : Ctx := I.convertCtx { ctx with trusted := c.view I.content }

/-- The context of the second phase, `self.validate(convert=False)`. -/
def ivCtx2 : Ctx := { conv := .val, validate := true, convert := false, oo := true }

/-- The context a field is converted in. -/
def fieldCtx (env : Env) (ctx : Ctx) (fd : FieldDef) : Ctx :=
  if fd.field.ty.isCompound then subCtx env ctx fd.name else ctx

theorem instImport_validated {env : Env} {n : Nat} {c : ClassDef} (hs : c.Simple) (hp : PureValidators c)
    {I I' : Inst} (hraw : I.raw = []) {raw : Data} (hne : raw ≠ []) {ctx : Ctx} (hv : ctx.validate = true)
    (h : instImport env n c I raw ctx = (.ok (), I')) :
    ∃ d d2, importBody (fieldConv env n) env (ivCtx1 c I ctx) c (raw.update (c.view I.content)) [] = .ok d ∧
      importBody (fieldConv env n) env ivCtx2 c
        ((I.converted.update d).update (c.view ({ I with converted := I.converted.update d } : Inst).content)) [] = .ok d2 ∧
      I'.raw = [] ∧ I'.converted = [] ∧ I'.valid = d2 := by
  obtain ⟨cv, tr, mp, pa, st, ini, de, co, va, oo, re, app⟩ := ctx
  simp only [] at hv
  subst hv
  unfold instImport instConvert at h
  have hsrc : I.source raw = raw := by
    unfold Inst.source
    rw [hraw]
    cases raw with
    | nil => exact absurd rfl hne
    | cons x xs => rfl
  have hI : ({ I with raw := [] } : Inst) = I := by cases I; simp_all
  have hafter : ∀ k : Ctx, k.validate = true → I.afterConvert env n k c raw = I := by
    intro k hk
    unfold Inst.afterConvert
    simp only [hk, if_true]
    have : raw.isEmpty = false := by cases raw; exact absurd rfl hne; rfl
    rw [this]
    simp only [Bool.false_and, Bool.false_eq_true, if_false, simple_setterWrites hs]
    cases I
    simp_all
  simp only [if_true] at h
  rw [hsrc, hafter _ rfl, hI] at h
  simp only [ivCtx1]
  generalize hk : I.convertCtx ⟨cv, c.view I.content, mp, pa, st, ini, de, co, true, oo, re, app⟩ = k at *
  cases hr : runValidate env n k c (.inst I.content) raw with
  | error e => simp [hr] at h
  | ok d =>
    simp only [hr] at h
    have h1 := ((simple_runValidate hs hp).1 hr).1
    generalize hI2 : ({ I with converted := I.converted.update d } : Inst) = I2 at *
    have hI2raw : I2.raw = [] := by rw [← hI2]; exact hraw
    have hI2c : I2.converted = I.converted.update d := by rw [← hI2]
    refine ⟨d, ?_⟩
    unfold instValidate at h
    simp only [Bool.and_false, Bool.false_eq_true, if_false] at h
    unfold instConvert at h
    simp only [if_true] at h
    have hI2' : ({ I2 with raw := [] } : Inst) = I2 := by rw [← hI2raw]
    have hctx2 : I2.convertCtx { validate := true, convert := false } = ivCtx2 := by
      simp [Inst.convertCtx, hI2raw, ivCtx2]
    have hsrc2 : I2.source [] = I2.converted := by simp [Inst.source, hI2raw]
    rw [hI2', hctx2, hsrc2] at h
    cases hr2 : runValidate env n ivCtx2 c (.inst I2.content) I2.converted with
    | error e =>
      rw [hr2] at h
      cases e <;> (simp only [] at h; injection h with h; cases h)
    | ok d2 =>
      rw [hr2] at h
      have h2 := ((simple_runValidate hs hp).1 hr2).1
      rw [hI2c] at h2
      simp only [] at h
      injection h with _ h
      subst h
      exact ⟨d2, h1, by rw [← hI2] at h2; exact h2, afterConvert_raw .., rfl, rfl⟩

theorem rawValue_update_view {c : ClassDef} (hc : c.WF) {fd : FieldDef} (hfd : Plain c fd) (raw m : Data) :
    rawValue (raw.update (c.view m)) fd.name =
      ((Dict.get? m (.str fd.name)).or (Dict.get? raw (.str fd.name))).getD .undef := by
  unfold rawValue
  rw [Dict.get?_update _ _ (view_nodup hc m), view_get hc hfd.mem hfd.set hfd.get]

theorem isUndef_false {v : Val} (h : v ≠ .undef) : v.isUndef = false := by
  cases hh : v.isUndef with
  | false => rfl
  | true => exact absurd ((Val.isUndef_iff v).1 hh) h

/-- One field of an import body whose raw value is `v`. -/
theorem body_value {env : Env} {n : Nat} {ctx : Ctx} {c : ClassDef} (hc : c.WF) {raw d : Data} {fd : FieldDef}
    (hfd : Plain c fd) {v : Val} (hv : v ≠ .undef) (hr : rawValue raw fd.name = v)
    (h : importBody (fieldConv env n) env ctx c raw [] = .ok d) :
    ∃ w, fieldConv env n (fieldCtx env ctx fd) true fd.field v = .ok w ∧
      Dict.get? d (.str fd.name) = if w.isUndef then Dict.get? ctx.trusted (.str fd.name) else some w := by
  have hu := isUndef_false hv
  have hin : inputValue raw ctx.mapping fd = v := by simp [inputValue, hr, hu]
  rcases importBody_fields hc h hfd.mem hfd.set with ⟨_, _, h3⟩ | ⟨w, hw, hd⟩
  · rw [hin, hu] at h3; cases h3
  · rw [hin] at hw
    have : fillValue ctx fd v = v := by simp [fillValue, hu]
    rw [this] at hw
    exact ⟨w, hw, hd⟩

/-- The two phases of `import_data(raw, validate=True)` for one field whose first-phase input is `v`. -/
theorem import_validated_field {env : Env} {n : Nat} {c : ClassDef} (hc : c.WF) (hs : c.Simple) (hp : PureValidators c)
    {I I' : Inst} (hwf : I.WF) (hraw : I.raw = []) {raw : Data} (hne : raw ≠ []) {ctx : Ctx}
    (hv : ctx.validate = true) (h : instImport env n c I raw ctx = (.ok (), I')) {fd : FieldDef} (hfd : fd ∈ c.fields)
    {v : Val} (hvu : v ≠ .undef)
    (hin : ((I.lookup (.str fd.name)).or (Dict.get? raw (.str fd.name))) = some v) :
    ∃ w1, fieldConv env n (fieldCtx env (ivCtx1 c I ctx) fd) true fd.field v = .ok w1 ∧
      ∀ x, (if w1.isUndef then I.lookup (.str fd.name) else some w1) = some x → x ≠ .undef →
        ∃ w2, fieldConv env n (fieldCtx env ivCtx2 fd) true fd.field x = .ok w2 ∧
          getAttr c I' fd.name = definedOr (if w2.isUndef then none else some w2) := by
  obtain ⟨d, d2, hb1, hb2, hr', hc', hv'⟩ := instImport_validated hs hp hraw hne hv h
  have hpl := Simple.plain hs hfd
  have hr1 : rawValue (raw.update (c.view I.content)) fd.name = v := by
    rw [rawValue_update_view hc hpl, Inst.content_get hwf, hin]
    rfl
  obtain ⟨w1, hw1, hd1⟩ := body_value hc hpl hvu hr1 hb1
  refine ⟨w1, hw1, ?_⟩
  intro x hx hxu
  have htr : (ivCtx1 c I ctx).trusted = c.view I.content := rfl
  rw [htr, view_get hc hfd hpl.set hpl.get, Inst.content_get hwf] at hd1
  have hd1' : Dict.get? d (.str fd.name) = some x := by rw [hd1]; exact hx
  have hdn : d.Nodup := by
    have := importBody_data_nodup (rec := fieldConv env n) (env := env) (ctx := ivCtx1 c I ctx)
      (raw := raw.update (c.view I.content)) (errs0 := []) hc (by rw [htr]; exact view_nodup hc _)
    rw [hb1] at this
    exact this
  have hwf2 : ({ I with converted := I.converted.update d } : Inst).WF :=
    ⟨hwf.raw, Dict.nodup_update hwf.converted _, hwf.valid, hwf.stale⟩
  have hl2 : ({ I with converted := I.converted.update d } : Inst).lookup (.str fd.name) = some x := by
    rw [lookup_noraw (by exact hraw)]
    simp only []
    rw [Dict.get?_update _ _ hdn, hd1']
    rfl
  have hr2 : rawValue ((I.converted.update d).update
      (c.view ({ I with converted := I.converted.update d } : Inst).content)) fd.name = x := by
    rw [rawValue_update_view hc hpl, Inst.content_get hwf2, hl2]
    rfl
  obtain ⟨w2, hw2, hd2⟩ := body_value hc hpl hxu hr2 hb2
  refine ⟨w2, hw2, ?_⟩
  rw [getAttr_plain hc hpl, lookup_noraw hr', hc', hv', hd2]
  rfl

/-! ## C37 -/

open Samples in
/-- **C37, counterexample**: `m = Item({'qty': 1}); m.import_data({'qty': 2}, validate=True)` succeeds and `m.qty` is
still 1.  (Without `validate=True` it would be 2.) -/
theorem C37_counterexample_new_value_ignored :
    ∃ I I', instInit env 5 item [(.str "qty", .int 1)] [] false newCtx = .ok I ∧
      instImport env 5 item I [(.str "qty", .int 2)] { validate := true } = (.ok (), I') ∧
      getAttr item I' "qty" = .ok (.int 1) ∧
      getAttr item (instImport env 5 item I [(.str "qty", .int 2)] {}).2 "qty" = .ok (.int 2) :=
  ⟨_, _, rfl, rfl, rfl, rfl⟩

/-- **C37, the general failure.** On every instance created without `lazy=True`, after any history: for a
field that already has a value, the value read after a successful `import_data(raw, validate=True)` does
not depend on `raw` at all. -/
theorem C37_counterexample_input_never_used (env : Env) (n : Nat) (c : ClassDef) (hc : c.WF) (hs : c.Simple) (hp : PureValidators c)
    (I : Inst) (hI : Reachable env n c true I) (fd : FieldDef) (hfd : fd ∈ c.fields) (old : Val)
    (hold : getAttr c I fd.name = .ok old) (ctx : Ctx) (hv : ctx.validate = true) (raw1 raw2 : Data)
    (h1 : raw1 ≠ []) (h2 : raw2 ≠ []) (I1 I2 : Inst) (hr1 : instImport env n c I raw1 ctx = (.ok (), I1))
    (hr2 : instImport env n c I raw2 ctx = (.ok (), I2)) :
    getAttr c I1 fd.name = getAttr c I2 fd.name := by
  have hwf := hI.wf hc hp.nodup
  have hpl := Simple.plain hs hfd
  rw [getAttr_plain hc hpl] at hold
  obtain ⟨hl, hu⟩ := definedOr_ok.1 hold
  have hin : ∀ raw : Data, ((I.lookup (.str fd.name)).or (Dict.get? raw (.str fd.name))) = some old := by
    intro raw; rw [hl]; rfl
  obtain ⟨w1, hw1, hx1⟩ := import_validated_field hc hs hp hwf hI.raw h1 hv hr1 hfd hu (hin _)
  obtain ⟨w2, hw2, hx2⟩ := import_validated_field hc hs hp hwf hI.raw h2 hv hr2 hfd hu (hin _)
  rw [hw1] at hw2
  injection hw2 with hw2
  subst hw2
  have hx : ∃ x, (if w1.isUndef then I.lookup (.str fd.name) else some w1) = some x ∧ x ≠ .undef := by
    split
    · exact ⟨old, hl, hu⟩
    · rename_i hwu
      exact ⟨w1, rfl, by rintro rfl; exact hwu rfl⟩
  obtain ⟨x, hx, hxu⟩ := hx
  obtain ⟨y1, hy1, hg1⟩ := hx1 x hx hxu
  obtain ⟨y2, hy2, hg2⟩ := hx2 x hx hxu
  rw [hy1] at hy2
  injection hy2 with hy2
  subst hy2
  rw [hg1, hg2]

/-- **C37, new fields.** For a field that has no value yet, given in `raw` under its own name, a successful
`import_data(raw, validate=True)` stores the validated and converted input (for types that do not
override `validate`, i.e. all but `UnionType`). -/
theorem C37_new_field (env : Env) (n : Nat) (c : ClassDef) (hc : c.WF) (hs : c.Simple) (hp : PureValidators c)
    (I I' : Inst) (hI : Reachable env n c true I) (fd : FieldDef) (hfd : fd ∈ c.fields)
    (hnone : I.lookup (.str fd.name) = none) (ctx : Ctx) (hv : ctx.validate = true) (hcv : ctx.convert = true)
    (raw : Data) (v : Val) (hvu : v ≠ .undef) (hraw : Dict.get? raw (.str fd.name) = some v)
    (hov : fd.field.ty.override = none)
    (hr : instImport env n c I raw ctx = (.ok (), I')) :
    ∃ w ctx', ctx'.conv = .val ∧ ctx'.convert = true ∧ ctx'.app = ctx.app ∧ ctx'.partial_ = ctx.partial_ ∧
      fieldConv env n ctx' true fd.field v = .ok w ∧ (w ≠ .undef → getAttr c I' fd.name = .ok w) := by
  have hne : raw ≠ [] := by rintro rfl; cases hraw
  obtain ⟨w1, hw1, hx⟩ := import_validated_field hc hs hp (hI.wf hc hp.nodup) hI.raw hne hv hr hfd hvu
    (by rw [hnone, hraw]; rfl)
  refine ⟨w1, fieldCtx env (ivCtx1 c I ctx) fd, ?_, ?_, ?_, ?_, hw1, ?_⟩
  · unfold fieldCtx; split <;> simp [subCtx, ivCtx1, Inst.convertCtx, hv]
  · unfold fieldCtx; split <;> simp [subCtx, ivCtx1, Inst.convertCtx, hcv]
  · unfold fieldCtx; split <;> rfl
  · unfold fieldCtx; split <;> rfl
  intro hwu
  obtain ⟨w2, hw2, hg⟩ := hx w1 (by rw [isUndef_false hwu]; rfl) hwu
  have hctx2 : (fieldCtx env ivCtx2 fd).conv = .val ∧ (fieldCtx env ivCtx2 fd).convert = false := by
    unfold fieldCtx
    split <;> exact ⟨rfl, rfl⟩
  have hw21 : w2 = w1 := by
    generalize fieldCtx env ivCtx2 fd = k at *
    cases n with
    | zero => cases hw2
    | succ n =>
      simp only [fieldConv, fieldConvF, hctx2.1] at hw2
      cases hrq : requiredFails k true fd.field w1 with
      | true => rw [hrq] at hw2; cases hw2
      | false =>
        rw [hrq] at hw2
        simp only [Bool.false_eq_true, if_false] at hw2
        split at hw2
        · cases hw2; rfl
        · simp only [validateF, hov, hctx2.2, Bool.false_eq_true, if_false] at hw2
          split at hw2
          · split at hw2
            · cases hw2
            · exact (finishValidation_ok hw2).1
          · exact (finishValidation_ok hw2).1
  rw [hg, hw21, isUndef_false hwu]
  exact definedOr_ok.2 ⟨rfl, hwu⟩

/-! ## C38 -/

/-- The model-level validators look at the data and the value, not at the old state of the instance. -/
def ViewFree (c : ClassDef) : Prop :=
  ∀ nf ∈ c.validators, ∀ mv mv' d v app, nf.2 mv d v app = nf.2 mv' d v app

theorem modelValidators_viewFree {c : ClassDef} (h : ViewFree c) (mv mv' : Data) (app : Val) (fds : List FieldDef) (d : Data) :
    modelValidators c mv app fds d = modelValidators c mv' app fds d := by
  induction fds generalizing d with
  | nil => rfl
  | cons fd fds ih =>
    simp only [modelValidators]
    cases hg : (if (rawValue d fd.name).isUndef then none else Dict.get? c.validators fd.name) with
    | none => exact ih d
    | some f =>
      have hf : Dict.get? c.validators fd.name = some f := by
        split at hg
        · cases hg
        · exact hg
      have hh := h _ (Dict.mem_of_get? hf) mv mv' d (rawValue d fd.name) app
      simp only [] at hh
      simp only [hh, ih]

theorem validateModel_viewFree {c : ClassDef} (h : ViewFree c) (mv mv' : Data) (app : Val) (d : Data) :
    validateModel c mv app d = validateModel c mv' app d := by
  unfold validateModel
  rw [modelValidators_viewFree h mv mv']

theorem update_nodup_nil {d : Data} (h : d.Nodup) : Dict.update [] d = d := by
  have key : ∀ (e d : Data), (e ++ d).Nodup → Dict.update e d = e ++ d := by
    intro e d
    induction d generalizing e with
    | nil => intro _; simp
    | cons kv d ih =>
      intro hn
      rw [Dict.update_cons, set_fresh]
      · have : e ++ kv :: d = (e ++ [kv]) ++ d := by simp
        rw [this] at hn ⊢
        exact ih _ hn
      · simp only [Dict.Nodup, Dict.keys, List.map_append, List.map_cons, List.nodup_append] at hn
        intro hk
        exact hn.2.2 _ hk _ (by simp) rfl
  simpa using key [] d h

/-- A successful validation that really ran, on a class without setters and getters. -/
theorem instValidate_ok {env : Env} {n : Nat} {c : ClassDef} (hs : c.Simple) (hp : PureValidators c) {I I' : Inst}
    (hraw : I.raw = []) {ctx : Ctx} (hrun : (I.converted.isEmpty && ctx.partial_) = false)
    (h : instValidate env n c I ctx = (.ok (), I')) :
    ∃ d, importBody (fieldConv env n) env (I.convertCtx { ctx with validate := true, trusted := [] }) c
        (I.converted.update (c.view I.content)) [] = .ok d ∧
      validateModel c I.content ctx.app d = .ok ([], d) ∧
      I' = { raw := [], converted := [], valid := d, stale := some (I.stale.getD I.valid) } := by
  unfold instValidate at h
  rw [hrun] at h
  simp only [Bool.false_eq_true, if_false] at h
  unfold instConvert at h
  simp only [if_true] at h
  have hI : ({ I with raw := [] } : Inst) = I := by cases I; simp_all
  have hsrc : I.source [] = I.converted := by simp [Inst.source, hraw]
  rw [hI, hsrc] at h
  have hst := afterConvert_valid env n (I.convertCtx { ctx with validate := true, trusted := [] }) c I []
  have hrw := afterConvert_raw env n (I.convertCtx { ctx with validate := true, trusted := [] }) c I []
  generalize (I.afterConvert env n (I.convertCtx { ctx with validate := true, trusted := [] }) c []) = I1 at *
  cases hr : runValidate env n (I.convertCtx { ctx with validate := true, trusted := [] }) c (.inst I.content) I.converted with
  | error e =>
    rw [hr] at h
    cases e <;> (simp only [] at h; injection h with h; cases h)
  | ok d =>
    rw [hr] at h
    simp only [] at h
    injection h with _ h
    obtain ⟨h1, h2⟩ := (simple_runValidate hs hp).1 hr
    refine ⟨d, h1, h2, ?_⟩
    rw [← h]
    simp only [Inst.setValid]
    rw [hrw, hst.1, hst.2]

/-- **C38.** On every instance created without `lazy=True`, after any history: if `m.validate()` succeeds, a
second `m.validate()` with the same options also succeeds and changes nothing at all. (Conversions must be
idempotent, model-level validators must only check and not look at the old state.) -/
theorem C38_validate_twice (env : Env) (n : Nat) (c : ClassDef) (henv : env.Stable true) (hc : c.Stable env true)
    (hvf : ViewFree c) (I I' : Inst) (hI : Reachable env n c true I) (ctx : Ctx) (hcv : ctx.convert = true)
    (hmap : ctx.mapping = .empty) (h : instValidate env n c I ctx = (.ok (), I')) :
    instValidate env n c I' ctx = (.ok (), I') := by
  cases hrun : (I.converted.isEmpty && ctx.partial_) with
  | true =>
    have : I' = I := by
      unfold instValidate at h
      rw [hrun] at h
      simp only [if_true] at h
      injection h with _ h
      exact h.symm
    rw [this]
    unfold instValidate
    rw [hrun]
    rfl
  | false =>
    have hwf := hI.wf hc.wf hc.pure.nodup
    obtain ⟨d, h1, h2, rfl⟩ := instValidate_ok hc.simple hc.pure hI.raw hrun h
    unfold instValidate
    simp only [List.isEmpty_nil, Bool.true_and]
    split
    · rfl
    · unfold instConvert
      simp only [if_true]
      have hcc : ({ raw := [], converted := [], valid := d, stale := some (I.stale.getD I.valid) } : Inst).convertCtx
          { ctx with validate := true, trusted := [] } = I.convertCtx { ctx with validate := true, trusted := [] } := by
        simp [Inst.convertCtx, hI.raw, hcv]
      rw [hcc]
      have hcont : ({ raw := [], converted := [], valid := d, stale := some (I.stale.getD I.valid) } : Inst).content = d := rfl
      have hsrc : ({ raw := [], converted := [], valid := d, stale := some (I.stale.getD I.valid) } : Inst).source [] = [] := rfl
      rw [hcont, hsrc]
      have hplain : (I.convertCtx { ctx with validate := true, trusted := [] }).Plain env :=
        ⟨rfl, Or.inr ⟨rfl, rfl⟩, by simp [Inst.convertCtx, hcv], Or.inl rfl, Or.inr hmap⟩
      have hst := afterConvert_valid env n (I.convertCtx { ctx with validate := true, trusted := [] }) c
        ({ raw := [], converted := [], valid := d, stale := some (I.stale.getD I.valid) } : Inst) []
      have hrw := afterConvert_raw env n (I.convertCtx { ctx with validate := true, trusted := [] }) c
        ({ raw := [], converted := [], valid := d, stale := some (I.stale.getD I.valid) } : Inst) []
      generalize (({ raw := [], converted := [], valid := d, stale := some (I.stale.getD I.valid) } : Inst).afterConvert env n
        (I.convertCtx { ctx with validate := true, trusted := [] }) c []) = I1 at *
      have happ : (I.convertCtx { ctx with validate := true, trusted := [] }).app = ctx.app := rfl
      have hval : (I.convertCtx { ctx with validate := true, trusted := [] }).validate = true := rfl
      have htr : (I.convertCtx { ctx with validate := true, trusted := [] }).trusted = [] := rfl
      generalize (I.convertCtx { ctx with validate := true, trusted := [] }) = k at *
      obtain ⟨h3, h4⟩ := importBody_stable (fieldConv_stable henv n) hplain hval hc h1
      have hdn : d.Nodup := by
        have := importBody_data_nodup (rec := fieldConv env n) (env := env) (ctx := k)
          (raw := I.converted.update (c.view I.content)) (errs0 := []) hc.wf (by rw [htr]; exact nodup_nil)
        rw [h1] at this
        exact this
      have hrv : runValidate env n k c (.inst d) [] = .ok d := by
        rw [simple_runValidate hc.simple hc.pure, h4, update_nodup_nil hdn, happ]
        exact ⟨h3, by rw [validateModel_viewFree hvf d I.content]; exact h2⟩
      rw [hrv]
      simp only [Inst.setValid]
      rw [hrw, hst.1, hst.2]
      rfl

/-! ## The hypotheses are met -/

namespace Samples

theorem item_viewFree : ViewFree item := by intro nf h; cases h

example : (instImport env 5 item itemI [(.str "qty", .int 8)] { validate := true }).1 = .ok () := rfl
example : getAttr item (instImport env 5 item itemI [(.str "qty", .int 8)] { validate := true }).2 "qty" =
    getAttr item (instImport env 5 item itemI [(.str "qty", .int 9)] { validate := true }).2 "qty" :=
  C37_counterexample_input_never_used env 5 item item_wf (item_stable true).simple (item_stable true).pure itemI itemI_reachable _
    qty_plain.mem (.int 1) rfl { validate := true } rfl [(.str "qty", .int 8)] [(.str "qty", .int 9)] (by simp) (by simp) _ _ rfl rfl
/-- An instance without a value for `tag`: `Item({'qty': 1}, init=False)`. -/
def itemP : Inst := { converted := [(.str "qty", .int 1)] }
theorem itemP_reachable : Reachable env 5 item true itemP :=
  .new (raw := [(.str "qty", .int 1)]) (trusted := []) (ctx := { partial_ := true, strict := true })
    (by unfold Dict.Nodup; decide) (by unfold Dict.Nodup; decide) (fun _ => rfl) rfl
example : ∃ w ctx', ctx'.conv = .val ∧ ctx'.convert = true ∧ ctx'.app = ({} : Ctx).app ∧ ctx'.partial_ = false ∧
    fieldConv env 5 ctx' true (.mk (.leaf strLeaf) { serializedName := some "label" }) (.int 5) = .ok w ∧
    (w ≠ .undef → getAttr item (instImport env 5 item itemP [(.str "tag", .int 5)] { validate := true }).2 "tag" = .ok w) :=
  C37_new_field env 5 item item_wf (item_stable true).simple (item_stable true).pure itemP
    (instImport env 5 item itemP [(.str "tag", .int 5)] { validate := true }).2 itemP_reachable _
    tag_plain.mem rfl { validate := true } rfl rfl [(.str "tag", .int 5)] (.int 5) (by simp) rfl rfl rfl
example : instValidate env 5 item (instValidate env 5 item itemI {}).2 {} = (.ok (), (instValidate env 5 item itemI {}).2) :=
  C38_validate_twice env 5 item (env_stable true) (item_stable true) item_viewFree itemI _ itemI_reachable {} rfl rfl rfl

end Samples

end Verif
