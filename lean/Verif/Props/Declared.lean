import Verif.Props.Deep
import Verif.Props.Instance3

/-!
# C04 at every depth

No undeclared key gets into the result or into `partial_data`, however deep in lists, dicts and nested models.
-/
namespace Verif

/-! ## Specification vocabulary -/

/-- The class that a model-typed field may have used for its value: for a `ModelType` its own class or a subclass
of it (the value was an instance of the subclass), for a `PolyModelType` the class it picks for some input. -/
def FType.Uses (env : Env) (t : FType) (k : String) : Prop :=
  (∃ cls, t = .model cls ∧ (k = cls ∨ env.isSub k cls = true)) ∨
  (∃ p v, t = .poly p ∧ p.findModel env v = .ok k)

/-- In the value of a field, following the schema down through list items, dict values and nested models, every
nested model has only keys that its class declares.  Exempt are ready-made instances in polymorphic fields if `ready`
is set, and values that are the field's default if `dflt` is set. -/
inductive OnlyDeclared (env : Env) (ready dflt : Bool) : Field → Val → Prop
  | empty {f v} : v.isEmpty = true → OnlyDeclared env ready dflt f v
  | scalar {l o v} : OnlyDeclared env ready dflt (.mk (.leaf l) o) v
  | list {inner mn mx o xs} : (∀ x ∈ xs, OnlyDeclared env ready dflt inner x) →
      OnlyDeclared env ready dflt (.mk (.list inner mn mx) o) (.list xs)
  | dict {inner co o kvs} : (∀ kv ∈ kvs, OnlyDeclared env ready dflt inner kv.2) →
      OnlyDeclared env ready dflt (.mk (.dict inner co) o) (.dict kvs)
  | model {t o k c d v} : t.Uses env k → env.cls k = some c → (v = .inst c.name d ∨ v = .dict d) →
      (∀ key ∈ Dict.keys d, ∃ fd ∈ c.fields, key = .str fd.name) →
      (∀ fd ∈ c.fields, fd.fset = none → ∀ w, Dict.get? d (.str fd.name) = some w →
        OnlyDeclared env ready dflt fd.field w) →
      OnlyDeclared env ready dflt (.mk t o) v
  | prebuilt {p o v} : ready = true → p.allowed env v = true → OnlyDeclared env ready dflt (.mk (.poly p) o) v
  | default {f} : dflt = true → OnlyDeclared env ready dflt f f.o.default

mutual
/-- The validators given to compound fields raise the documented errors, not `DataError` (only models raise it). -/
def FType.PlainErrors : FType → Prop
  | .leaf _ => True
  | .list inner _ _ => inner.PlainErrors
  | .dict inner _ => inner.PlainErrors
  | .model _ => True
  | .poly _ => True
/-- The same for a field. -/
def Field.PlainErrors : Field → Prop
  | .mk t o => t.PlainErrors ∧ (t.isCompound = true → ∀ g ∈ o.validators, Validator.NoData g)
end

/-- The same for all classes of the class table. -/
def Env.PlainErrors (env : Env) : Prop := ∀ k c, env.cls k = some c → ∀ fd ∈ c.fields, fd.field.PlainErrors

/-! ## Lemmas -/

/-- What a call of a field converter leaves in the data: the result, or the partial data of a failed model. -/
def produced : R Val → Option Val
  | .ok w => some w
  | .error (.data _ p) => some (.dict p)
  | _ => none

/-- The data of a finished run, `none` if it crashed. -/
def producedData : R Data → Option Data
  | .ok d => some d
  | .error (.data _ p) => some p
  | _ => none

theorem producedData_ok {r : R Data} {d : Data} (h : producedData r = some d) :
    r = .ok d ∨ ∃ es, r = .error (.data es d) := by
  cases r with
  | ok d' => injection h with h; exact Or.inl (by rw [h])
  | error e =>
    cases e with
    | data es p => injection h with h; exact Or.inr ⟨es, by rw [h]⟩
    | _ => cases h

theorem producedData_dataOf {r : R Data} {d : Data} (h : producedData r = some d) : dataOf r = d := by
  rcases producedData_ok h with rfl | ⟨es, rfl⟩ <;> rfl

theorem importBody_produced {rec : Rec} {env : Env} {ctx : Ctx} {c : ClassDef} (hc : c.WF)
    {raw : Data} {errs0 : Errs} {d : Data} (h : producedData (importBody rec env ctx c raw errs0) = some d)
    {fd : FieldDef} (hfd : fd ∈ c.fields) (hp : fd.fset = none) (ht : Dict.get? ctx.trusted (.str fd.name) = none)
    {w : Val} (hw : Dict.get? d (.str fd.name) = some w) :
    (ctx.defaults = true ∧ w = fd.field.o.default) ∨
    ∃ v, produced (rec (if fd.field.ty.isCompound then subCtx env ctx fd.name else ctx) true fd.field v) = some w := by
  rw [importBody_eq _ _ _ _ hc] at h
  cases hos : outcomes (fieldRes rec env ctx raw) (c.loopFields ctx) with
  | error e =>
    rw [hos] at h
    obtain ⟨_, _, he⟩ := outcomes_error hos
    have := fieldRes_error he
    cases e with
    | data es p => simp [Exc.caught] at this
    | _ => cases h
  | ok os =>
    rw [hos] at h
    have hd : copySettable c ctx raw (applyAll os ⟨ctx.trusted, startErrs ctx c raw errs0⟩).data = d := by
      simp only [] at h
      split at h <;> (injection h)
    have hl : fd ∈ c.loopFields ctx := mem_loopFields.2 ⟨hfd, Or.inr hp⟩
    have hmem : fd ∈ os.map (·.1) := by rw [outcomes_map_fst hos]; exact hl
    obtain ⟨⟨fd', o⟩, hpo, rfl⟩ := List.mem_map.1 hmem
    have ho := outcomes_mem hos _ hpo
    have hdat := importBody_data hc hos hl (startErrs ctx c raw errs0) ho
    rw [hd, hw, ht] at hdat
    simp only [Option.or_none] at hdat ho
    unfold fieldRes fieldOutcome at ho
    simp only [] at ho
    split at ho
    · injection ho with ho; subst ho; cases hdat
    · split at ho
      · rename_i w' hw'
        split at ho
        · injection ho with ho; subst ho; cases hdat
        · injection ho with ho; subst ho
          injection hdat with hdat
          subst hdat
          exact Or.inr ⟨_, by rw [hw']; rfl⟩
      · rename_i e he
        split at ho
        · injection ho with ho; subst ho
          simp only [Outcome.stored] at hdat
          unfold failRepl at hdat
          split at hdat
          · injection hdat with hdat
            exact Or.inr ⟨_, by rw [he, hdat]; rfl⟩
          · split at hdat
            · rename_i hdf
              injection hdat with hdat
              simp only [Bool.and_eq_true] at hdf
              exact Or.inl ⟨hdf.1, hdat⟩
            · cases hdat
        · cases ho

theorem importLoop_produced {rec : Rec} {env : Env} {ctx : Ctx} {c : ClassDef} {mu : Mut} {raw d : Data}
    (h : producedData (importLoop rec env ctx c mu raw) = some d) :
    ∃ raw' errs, producedData (importBody rec env ctx c raw' errs) = some d := by
  unfold importLoop at h
  split at h
  · split at h
    · rename_i e he
      cases e with
      | data es p => exact absurd he (runMutate_noData es p)
      | _ => cases h
    · exact ⟨_, _, h⟩
  · exact ⟨_, _, h⟩

/-- `d` has nothing that `d0` has not. -/
def Within (d d0 : Data) : Prop := ∀ k w, Dict.get? d k = some w → Dict.get? d0 k = some w

theorem popAll_within {ns : List String} {d d' : Data} (hd : d.Nodup) (h : popAll ns d = .ok d') : Within d' d := by
  intro k w hw
  rw [popAll_get hd h] at hw
  split at hw
  · cases hw
  · exact hw

theorem within_keys {d d0 : Data} (h : Within d d0) {k : Key} (hk : k ∈ d.keys) : k ∈ d0.keys := by
  obtain ⟨w, hw⟩ : ∃ w, Dict.get? d k = some w := by
    cases hg : Dict.get? d k with
    | none => exact absurd hk ((Dict.get?_eq_none _ _).1 hg)
    | some w => exact ⟨w, rfl⟩
  have := h k w hw
  exact (Dict.get?_isSome _ _).1 (by rw [this]; rfl)

theorem validateModel_within {c : ClassDef} (hp : PureValidators c) {mv : Data} {app : Val} {d d' : Data} {es : Errs} (hd : d.Nodup)
    (h : validateModel c mv app d = .ok (es, d')) : Within d' d := by
  unfold validateModel at h
  split at h
  · cases h
  · rename_i es1 inv d1 hmv
    split at h
    · cases h
    · rename_i d2 hpop
      injection h with h
      injection h with h1 h2
      subst h2
      have := (modelValidators_pure hp hmv).1
      simp only [] at this
      subst this
      exact popAll_within hd hpop

theorem validateFn_produced {rec : Rec} {env : Env} {ctx : Ctx} {c : ClassDef} (hc : c.WF) (ht : ctx.trusted.Nodup) (hp : PureValidators c) {mu : Mut} {raw d : Data}
    (h : producedData (validateFn rec env ctx c mu raw) = some d) :
    ∃ raw' errs d0, producedData (importBody rec env ctx c raw' errs) = some d0 ∧ Within d d0 := by
  unfold validateFn at h
  split at h
  · rename_i e he
    cases e with
    | data es p => exact absurd he (runMutate_noData es p)
    | _ => cases h
  · rename_i m hm
    have hnd := importBody_data_nodup (rec := rec) (env := env) (raw := m.raw) (errs0 := m.errs) hc ht
    cases hb : importBody rec env ctx c m.raw m.errs with
    | ok d0 =>
      rw [hb] at h hnd
      refine ⟨m.raw, m.errs, d0, by rw [hb]; rfl, ?_⟩
      simp only [] at h
      cases hv : validateModel c m.data ctx.app d0 with
      | error e =>
        rw [hv] at h
        cases e with
        | data es p => exact absurd hv (validateModel_noData es p)
        | _ => cases h
      | ok r =>
        obtain ⟨es2, d'⟩ := r
        rw [hv] at h
        have : d' = d := by
          simp only [] at h
          split at h <;> (injection h)
        subst this
        exact validateModel_within hp hnd hv
    | error e =>
      rw [hb] at h hnd
      cases e with
      | data es p =>
        refine ⟨m.raw, m.errs, p, by rw [hb]; rfl, ?_⟩
        simp only [] at h
        cases hv : validateModel c m.data ctx.app p with
        | error e =>
          rw [hv] at h
          cases e with
          | data es p => exact absurd hv (validateModel_noData es p)
          | _ => cases h
        | ok r =>
          obtain ⟨es2, d'⟩ := r
          rw [hv] at h
          have : d' = d := by
            simp only [] at h
            split at h <;> (injection h)
          subst this
          exact validateModel_within hp hnd hv
      | _ => cases h

/-- The value left by the import of a nested model: an instance or a dict with the data of the field loop. -/
def FromBody (rec : Rec) (env : Env) (ctx : Ctx) (c : ClassDef) (w : Val) : Prop :=
  ∃ raw' errs d0 d, producedData (importBody rec env ctx c raw' errs) = some d0 ∧ Within d d0 ∧
    (w = .inst c.name d ∨ w = .dict d)

theorem newInstance_produced {rec : Rec} {env : Env} {ctx : Ctx} (ht : ctx.trusted.Nodup) {c : ClassDef} (hc : c.WF) (hp : PureValidators c)
    {raw : Data} {w : Val} (h : produced (newInstance rec env ctx c raw) = some w) : FromBody rec env ctx c w := by
  have key : ∃ d, producedData (if ctx.validate then validateFn rec env ctx c (.inst []) raw
      else importLoop rec env ctx c (.inst []) raw) = some d ∧ (w = .inst c.name d ∨ w = .dict d) := by
    unfold newInstance at h
    generalize (if ctx.validate then validateFn rec env ctx c (.inst []) raw
      else importLoop rec env ctx c (.inst []) raw) = r at h ⊢
    cases r with
    | ok d => injection h with h; exact ⟨d, rfl, Or.inl h.symm⟩
    | error e =>
      cases e with
      | data es p => injection h with h; exact ⟨p, rfl, Or.inr h.symm⟩
      | _ => cases h
  obtain ⟨d, hd, hw⟩ := key
  split at hd
  · obtain ⟨raw', errs, d0, h1, h2⟩ := validateFn_produced hc ht hp hd
    exact ⟨raw', errs, d0, d, h1, h2, hw⟩
  · obtain ⟨raw', errs, h1⟩ := importLoop_produced hd
    exact ⟨raw', errs, d, d, h1, fun _ _ h => h, hw⟩

theorem modelInto_produced {rec : Rec} {env : Env} {ctx : Ctx} (ht : ctx.trusted.Nodup) {c : ClassDef} (hc : c.WF) (hp : PureValidators c)
    {raw : Data} {b : Bool} {w : Val} (h : produced (modelInto rec env ctx c raw b) = some w) :
    FromBody rec env ctx c w := by
  unfold modelInto at h
  split at h
  · exact newInstance_produced ht hc hp h
  · have key : ∃ d, producedData (importLoop rec env ctx c (.same b) raw) = some d ∧ w = .dict d := by
      generalize importLoop rec env ctx c (.same b) raw = r at h ⊢
      cases r with
      | ok d => injection h with h; exact ⟨d, rfl, h.symm⟩
      | error e =>
        cases e with
        | data es p => injection h with h; exact ⟨p, rfl, h.symm⟩
        | _ => cases h
    obtain ⟨d, hd, hw⟩ := key
    obtain ⟨raw', errs, h1⟩ := importLoop_produced hd
    exact ⟨raw', errs, d, d, h1, fun _ _ h => h, Or.inr hw⟩

theorem modelConv_produced {rec : Rec} {env : Env} {ctx : Ctx} (ht : ctx.trusted.Nodup) (hwf : env.WF) (hp : env.Pure) {cls : String} {v w : Val}
    (h : produced (modelConv rec env ctx cls v) = some w) :
    ∃ k c, (FType.model cls).Uses env k ∧ env.cls k = some c ∧ FromBody rec env ctx c w := by
  unfold modelConv at h
  split at h
  · split at h
    · rename_i hs
      split at h
      · rename_i c hc
        exact ⟨_, c, Or.inl ⟨cls, rfl, Or.inr hs⟩, hc, modelInto_produced ht (hwf _ _ hc) (hp _ _ hc) h⟩
      · cases h
    · cases h
  · split at h
    · rename_i c hc
      exact ⟨_, c, Or.inl ⟨cls, rfl, Or.inl rfl⟩, hc, modelInto_produced ht (hwf _ _ hc) (hp _ _ hc) h⟩
    · cases h
  · cases h

theorem polyConv_produced {rec : Rec} {env : Env} {ctx : Ctx} (ht : ctx.trusted.Nodup) (hwf : env.WF) (hp : env.Pure) {p : PolySpec} {v w : Val}
    (h : produced (polyConv rec env ctx p v) = some w) :
    (ctx.validate = false ∧ p.allowed env w = true) ∨
    ∃ k c, (FType.poly p).Uses env k ∧ env.cls k = some c ∧ FromBody rec env ctx c w := by
  unfold polyConv at h
  split at h
  · rename_i ha
    injection h with h
    simp only [Bool.and_eq_true, Bool.not_eq_true'] at ha
    subst h
    exact Or.inl ha
  · split at h
    · cases h
    · right
      split at h
      · rename_i e he
        cases e with
        | data es q =>
          exfalso
          unfold PolySpec.findModel at he
          split at he
          · split at he <;> cases he
          · simp only [] at he
            split at he <;> cases he
        | _ => cases h
      · rename_i k hk
        split at h
        · cases h
        · rename_i c hc
          have hpc := hp _ _ hc
          refine ⟨k, c, Or.inr ⟨p, v, rfl, hk⟩, hc, ?_⟩
          split at h
          · exact newInstance_produced ht (hwf _ _ hc) hpc h
          · exact newInstance_produced ht (hwf _ _ hc) hpc h
          · split at h
            · cases h
            · exact newInstance_produced ht (hwf _ _ hc) hpc h

theorem compound_validators {f : Field} (hc : f.ty.isCompound = true) (h : f.PlainErrors) :
    ∀ g ∈ f.allValidators, Validator.NoData g := by
  obtain ⟨t, o⟩ := f
  simp only [Field.PlainErrors] at h
  intro g hg
  unfold Field.allValidators at hg
  rcases List.mem_cons.1 hg with rfl | hg
  · exact checkChoices_noData _
  · rcases List.mem_append.1 hg with hg | hg
    · cases t with
      | leaf l => cases hc
      | list i a b =>
        simp only [Field.ty_mk, List.mem_singleton] at hg
        subst hg
        exact checkLength_noData _ _
      | _ => simp at hg
    · exact h.2 hc g hg

theorem fieldConvF_produced {rec : Rec} {env : Env} {ctx : Ctx} {b : Bool} {f : Field} {v w : Val}
    (hmode : ctx.conv = .imp ∨ ctx.convert = true) (hv : v.isEmpty = false)
    (hc : f.ty.isCompound = true) (hq : f.PlainErrors) (h : produced (fieldConvF rec env ctx b f v) = some w) :
    produced (convertF rec env ctx f v) = some w := by
  unfold fieldConvF at h
  split at h
  · cases h
  · rw [hv] at h
    simp only [Bool.false_eq_true, if_false] at h
    cases hcc : ctx.conv with
    | imp => rw [hcc] at h; exact h
    | val =>
      rw [hcc] at h
      have hcv : ctx.convert = true := by
        rcases hmode with h' | h'
        · rw [h'] at hcc; cases hcc
        · exact h'
      have hov : f.ty.override = none := by
        cases ht : f.ty with
        | leaf l => rw [ht] at hc; cases hc
        | _ => rfl
      simp only [validateF, hov, hcv, if_true] at h
      cases hcf : convertF rec env ctx f v with
      | error e => rw [hcf] at h; exact h
      | ok w' =>
        rw [hcf] at h
        simp only [] at h
        cases hfv : finishValidation ctx.app w' f.allValidators with
        | ok w2 =>
          rw [hfv] at h
          rw [(finishValidation_ok hfv).1] at h
          exact h
        | error e =>
          rw [hfv] at h
          cases e with
          | data es p => exact absurd hfv (finishValidation_noData (compound_validators hc hq) es p)
          | _ => cases h

/-- Whatever a field converter leaves in the data has only declared keys. -/
theorem onlyDeclared_conv {env : Env} (hwf : env.WF) (hpure : env.Pure) (hq : env.PlainErrors) (ctx : Ctx)
    (ht : ctx.trusted = []) (hmode : ctx.conv = .imp ∨ ctx.convert = true) :
    ∀ n m b f v w, Field.PlainErrors f → produced (fieldConv env n { ctx with mapping := m } b f v) = some w →
      OnlyDeclared env (!ctx.validate) ctx.defaults f w := by
  intro n
  induction n with
  | zero => intro m b f v w _ h; cases h
  | succ n ih =>
    intro m b f v w hl h
    by_cases hv : v.isEmpty = true
    · simp only [fieldConv, fieldConvF] at h
      split at h
      · cases h
      · injection h with h
        subst h
        exact .empty hv
    · have hconv : (∃ l o, f = .mk (.leaf l) o) ∨ (f.ty.isCompound = true ∧
          produced (convertF (fieldConv env n) env { ctx with mapping := m } f v) = some w) := by
        cases hcomp : f.ty.isCompound with
        | false =>
          obtain ⟨t, o⟩ := f
          cases t with
          | leaf l => exact Or.inl ⟨l, o, rfl⟩
          | _ => cases hcomp
        | true => exact Or.inr ⟨rfl, fieldConvF_produced hmode (by simpa using hv) hcomp hl h⟩
      rcases hconv with ⟨l, o, rfl⟩ | ⟨hcomp, hconv⟩
      · exact .scalar
      · -- nested models
        have hbody : ∀ t o k c, t.Uses env k → env.cls k = some c →
            FromBody (fieldConv env n) env { ctx with mapping := m } c w →
            OnlyDeclared env (!ctx.validate) ctx.defaults (.mk t o) w := by
          rintro t o k c hu hcls ⟨raw', errs, d0, d, hb, hwi, hw⟩
          refine .model hu hcls hw ?_ ?_
          · intro key hkey
            have hk0 := within_keys hwi hkey
            rw [← producedData_dataOf hb] at hk0
            rcases importBody_keys hk0 with h | h
            · simp [ht] at h
            · exact h
          · intro fd hfd hp w0 hw0
            have hw1 := hwi _ _ hw0
            rcases importBody_produced (hwf k c hcls) hb hfd hp (by simp [ht]) hw1 with ⟨h1, h2⟩ | ⟨v', h1⟩
            · rw [h2]; exact .default h1
            · split at h1
              · obtain ⟨m', hm'⟩ := subCtx_eq (env := env) (ctx := { ctx with mapping := m }) ht fd.name
                rw [hm'] at h1
                exact ih _ _ _ _ _ (hq k c hcls fd hfd) h1
              · exact ih _ _ _ _ _ (hq k c hcls fd hfd) h1
        obtain ⟨t, o⟩ := f
        simp only [Field.PlainErrors] at hl
        cases t with
        | leaf l => cases hcomp
        | list inner mn mx =>
          simp only [convertF, Field.ty_mk] at hconv
          split at hconv
          · cases hconv
          · rename_i xs hxs
            cases hlc : listConv (fieldConv env n { ctx with mapping := m } false inner) xs with
            | error e =>
              rw [hlc] at hconv
              cases e with
              | data es p =>
                exfalso
                unfold listConv at hlc
                split at hlc
                · rename_i e he; injection hlc with hlc; subst hlc; exact listLoop_noData _ _ he
                · split at hlc <;> cases hlc
              | _ => cases hconv
            | ok w' =>
              rw [hlc] at hconv
              injection hconv with hconv
              subst hconv
              obtain ⟨ys, rfl, hall⟩ := listConv_ok hlc
              refine .list fun y hy => ?_
              obtain ⟨x, _, hx⟩ := all2_mem hall y hy
              exact ih _ _ _ _ _ (by simpa [FType.PlainErrors] using hl.1) (by rw [hx]; rfl)
        | dict inner co =>
          simp only [convertF, Field.ty_mk] at hconv
          split at hconv
          · rename_i kvs
            cases hlc : dictConv (fieldConv env n { ctx with mapping := m } false inner) co kvs with
            | error e =>
              rw [hlc] at hconv
              cases e with
              | data es p =>
                exfalso
                unfold dictConv at hlc
                split at hlc
                · rename_i e he; injection hlc with hlc; subst hlc; exact dictLoop_noData _ _ he
                · split at hlc <;> cases hlc
              | _ => cases hconv
            | ok w' =>
              rw [hlc] at hconv
              injection hconv with hconv
              subst hconv
              obtain ⟨d, rfl, hall⟩ := dictConv_ok hlc
              refine .dict fun kv hkv => ?_
              obtain ⟨x, hx⟩ := hall kv hkv
              exact ih _ _ _ _ _ (by simpa [FType.PlainErrors] using hl.1) (by rw [hx]; rfl)
          · cases hconv
        | model cls =>
          simp only [convertF, Field.ty_mk] at hconv
          obtain ⟨k, c, hu, hcls, hb⟩ := modelConv_produced (by rw [ht]; exact List.nodup_nil) hwf hpure hconv
          exact hbody _ _ k c hu hcls hb
        | poly p =>
          simp only [convertF, Field.ty_mk] at hconv
          rcases polyConv_produced (by rw [ht]; exact List.nodup_nil) hwf hpure hconv with ⟨h1, h2⟩ | ⟨k, c, hu, hcls, hb⟩
          · simp only [] at h1
            exact .prebuilt (by simp [h1]) h2
          · exact hbody _ _ k c hu hcls hb

theorem onlyDeclared_body {env : Env} (hwf : env.WF) (hpure : env.Pure) (hq : env.PlainErrors) (ctx : Ctx)
    (ht : ctx.trusted = [] ∨ ctx.recursive = false) (hmode : ctx.conv = .imp ∨ ctx.convert = true)
    {n : Nat} {c : ClassDef} (hc : c.WF) (hqc : ∀ fd ∈ c.fields, fd.field.PlainErrors) {raw : Data} {errs : Errs} {d : Data}
    (h : producedData (importBody (fieldConv env n) env ctx c raw errs) = some d)
    {fd : FieldDef} (hfd : fd ∈ c.fields) (hp : fd.fset = none) (hnt : Key.str fd.name ∉ ctx.trusted.keys)
    {w : Val} (hw : Dict.get? d (.str fd.name) = some w) :
    OnlyDeclared env (!ctx.validate) ctx.defaults fd.field w := by
  rcases importBody_produced hc h hfd hp ((Dict.get?_eq_none _ _).2 hnt) hw with ⟨h1, h2⟩ | ⟨v, h1⟩
  · rw [h2]; exact .default h1
  · obtain ⟨m, hm⟩ : ∃ m, produced (fieldConv env n { ctx with trusted := [], mapping := m } true fd.field v) = some w := by
      split at h1
      · refine ⟨(subCtx env ctx fd.name).mapping, ?_⟩
        rw [← h1]
        congr 2
        unfold subCtx
        rcases ht with ht | ht <;> simp [ht]
      · rename_i hcomp
        refine ⟨ctx.mapping, ?_⟩
        rw [← h1]
        congr 1
        exact fieldConv_leaf_trusted env n ctx [] true fd.field (by simpa using hcomp) _
    exact onlyDeclared_conv hwf hpure hq { ctx with trusted := [] } rfl hmode _ _ _ _ _ _ (hqc fd hfd) hm

/-! ## C04 -/

/-- **C04.** At every depth, and whether the run succeeds or fails: the value which the result or `partial_data`
holds for a field (not taken from the trusted data) contains, in its list items, dict values and nested models to
any depth, only keys declared by the class of the nested model.  (Ready-made model instances in polymorphic fields
are passed through by an import; values of fields with setters are the given ones.) -/
theorem C04_at_every_depth (env : Env) (n : Nat) (ctx : Ctx) (c : ClassDef) (mu : Mut) (raw : Data)
    (hwf : env.WF) (hpure : env.Pure) (hq : env.PlainErrors) (hc : c.WF)
    (hqc : ∀ fd ∈ c.fields, fd.field.PlainErrors) (ht : ctx.trusted = [] ∨ ctx.recursive = false)
    (hnd : ctx.trusted.Nodup) (hmode : ctx.conv = .imp ∨ ctx.convert = true) (fd : FieldDef) (hfd : fd ∈ c.fields) (hp : fd.fset = none)
    (hnt : Key.str fd.name ∉ ctx.trusted.keys) (w : Val) :
    (Dict.get? (dataOf (runImport env n ctx c mu raw)) (.str fd.name) = some w →
      OnlyDeclared env (!ctx.validate) ctx.defaults fd.field w) ∧
    (PureValidators c → Dict.get? (dataOf (runValidate env n ctx c mu raw)) (.str fd.name) = some w →
      OnlyDeclared env (!ctx.validate) ctx.defaults fd.field w) := by
  have some_of : ∀ r : R Data, Dict.get? (dataOf r) (.str fd.name) = some w → ∃ d, producedData r = some d ∧
      Dict.get? d (.str fd.name) = some w := by
    intro r h
    cases r with
    | ok d => exact ⟨d, rfl, h⟩
    | error e =>
      cases e with
      | data es p => exact ⟨p, rfl, h⟩
      | _ => cases h
  constructor
  · intro h
    obtain ⟨d, h1, h2⟩ := some_of _ h
    obtain ⟨raw', errs, h3⟩ := importLoop_produced h1
    exact onlyDeclared_body hwf hpure hq ctx ht hmode hc hqc h3 hfd hp hnt h2
  · intro hpv h
    obtain ⟨d, h1, h2⟩ := some_of _ h
    obtain ⟨raw', errs, d0, h3, h4⟩ := validateFn_produced hc hnd hpv h1
    exact onlyDeclared_body hwf hpure hq ctx ht hmode hc hqc h3 hfd hp hnt (h4 _ _ h2)

/-! ## The hypotheses are met -/

theorem Samples.order_plainErrors : ∀ fd ∈ Samples.order.fields, fd.field.PlainErrors :=
  Samples.order_fields ⟨trivial, fun h => by cases h⟩
    ⟨⟨trivial, fun _ g h => by cases h⟩, fun _ g h => by cases h⟩
    ⟨⟨trivial, fun h => by cases h⟩, fun _ g h => by cases h⟩ ⟨trivial, fun h => by cases h⟩
    ⟨trivial, fun _ g h => by cases h⟩

theorem Samples.env_plainErrors : Samples.env.PlainErrors :=
  Samples.env_classes (Samples.item_fields ⟨trivial, fun h => by cases h⟩ ⟨trivial, fun h => by cases h⟩)
    Samples.order_plainErrors

/-- `{'id': 1, 'parent': {'id': 'x', 'evil': 1, 'parent': {'id': 2, 'items': 'q', 'evil': 2}}}` -/
def Samples.evil : Data :=
  [(.str "id", .int 1),
   (.str "parent", .dict [(.str "id", .str "x"), (.str "evil", .int 1),
     (.str "parent", .dict [(.str "id", .int 2), (.str "items", .str "q"), (.str "evil", .int 2)])])]

/-- A failed import two levels deep: the partial data of the nested models stays, the undeclared keys do not. -/
example : Dict.get? (dataOf (runImport Samples.env 5 Samples.ictx Samples.order (.inst []) Samples.evil)) (.str "parent") =
    some (.dict [(.str "items", .none), (.str "prices", .none), (.str "note", .str "-"),
      (.str "parent", .dict [(.str "id", .int 2), (.str "prices", .none), (.str "note", .str "-"), (.str "parent", .none)])]) := rfl

example := C04_at_every_depth Samples.env 5 Samples.ictx Samples.order (.inst []) Samples.evil
  Samples.env_wf Samples.env_pure Samples.env_plainErrors Samples.order_wf Samples.order_plainErrors (Or.inl rfl)
  List.nodup_nil (Or.inl rfl) { name := "parent", field := .mk (.model "Order") {} } (by simp [Samples.order]) rfl (by simp [Samples.ictx])

end Verif
