import Verif.Core.InstanceLemmas
import Verif.Samples

/-!
# C33-C36: attribute access and `import_data`
-/
namespace Verif

/-- `m.name` has no value (reading it raises `UndefinedValueError`, an `AttributeError`). -/
def Undefined (c : ClassDef) (I : Inst) (name : String) : Prop :=
  getAttr c I name = .error (.other "UndefinedValueError")

/-- A declared field that is not computed. -/
structure Plain (c : ClassDef) (fd : FieldDef) : Prop where
  mem : fd ∈ c.fields
  get : fd.fget = none
  set : fd.fset = none

/-! ## Lemmas -/

theorem getAttr_plain {c : ClassDef} (hc : c.WF) {fd : FieldDef} (h : Plain c fd) (I : Inst) :
    getAttr c I fd.name = definedOr (I.lookup (.str fd.name)) := by
  unfold getAttr
  rw [field?_of_mem hc h.mem]
  simp [h.get]

theorem setAttr_plain {env : Env} {n : Nat} {c : ClassDef} (hc : c.WF) {fd : FieldDef} (h : Plain c fd) {I : Inst}
    {v : Val} : setAttr env n c I fd.name v =
      match preSet env n fd.field v with
      | .error e => (.error e, I)
      | .ok w => (.ok (), { I with converted := I.converted.set (.str fd.name) w }) := by
  unfold setAttr
  rw [field?_of_mem hc h.mem]
  simp only [h.get]
  cases preSet env n fd.field v <;> rfl

theorem delAttr_plain {c : ClassDef} (hc : c.WF) {fd : FieldDef} (h : Plain c fd) {I : Inst} :
    delAttr c I fd.name = I.delete (.str fd.name) := by
  unfold delAttr
  rw [field?_of_mem hc h.mem]
  simp [h.get]

theorem lookup_noraw {I : Inst} (h : I.raw = []) (k : Key) :
    I.lookup k = (Dict.get? I.converted k).or (Dict.get? I.valid k) := by
  unfold Inst.lookup
  rw [h]
  simp only [Dict.get?_nil]
  cases Dict.get? I.converted k <;> simp

theorem definedOr_ok {o : Option Val} {v : Val} : definedOr o = .ok v ↔ o = some v ∧ v ≠ .undef := by
  unfold definedOr
  cases o with
  | none => simp
  | some w =>
    simp only []
    split
    · rename_i hw
      have := (Val.isUndef_iff w).1 hw
      constructor
      · intro h; cases h
      · rintro ⟨h, h'⟩; cases h; exact absurd this h'
    · rename_i hw
      constructor
      · intro h
        cases h
        exact ⟨rfl, by rintro rfl; exact hw rfl⟩
      · rintro ⟨h, _⟩; cases h; rfl

theorem fieldConv_empty {env : Env} {n : Nat} {ctx : Ctx} {b : Bool} {f : Field} {v w : Val} (hv : v.isEmpty = true)
    (h : fieldConv env n ctx b f v = .ok w) : w = v := by
  cases n with
  | zero => cases h
  | succ n =>
    simp only [fieldConv, fieldConvF, hv, if_true] at h
    cases hr : requiredFails ctx b f v with
    | true => rw [hr] at h; cases h
    | false => rw [hr] at h; cases h; rfl

/-! ## C33 -/

/-- **C33.** On every instance created without `lazy=True`, after any history of calls: if `m.f = v`
succeeds then `m.f` reads the assigned value, and every other (not computed) field reads as before.
The assigned value is `v` itself, except that a dict assigned to a `ModelType` field becomes
the instance `Model(v)`. -/
theorem C33_read_after_write (env : Env) (n : Nat) (c : ClassDef) (hc : c.WF) (I I' : Inst)
    (hI : Reachable env n c true I) (fd : FieldDef) (hfd : Plain c fd) (v : Val) (hv : v ≠ .undef)
    (h : setAttr env n c I fd.name v = (.ok (), I')) :
    (∃ w, getAttr c I' fd.name = .ok w ∧
      ((∀ cls d, ¬ (fd.field.ty = .model cls ∧ v = .dict d)) → w = v) ∧
      (∀ cls d, fd.field.ty = .model cls → v = .dict d → ∃ c' dd, env.cls cls = some c' ∧
        instInit env n c' d [] false newCtx = .ok { converted := dd } ∧ w = .inst c'.name dd)) ∧
    ∀ fd', Plain c fd' → fd'.name ≠ fd.name → getAttr c I' fd'.name = getAttr c I fd'.name := by
  rw [setAttr_plain hc hfd] at h
  cases hp : preSet env n fd.field v with
  | error e => rw [hp] at h; cases h
  | ok w =>
    rw [hp] at h
    injection h with _ h
    subst h
    have hw : w ≠ .undef ∧ ((∀ cls d, ¬ (fd.field.ty = .model cls ∧ v = .dict d)) → w = v) ∧
      (∀ cls d, fd.field.ty = .model cls → v = .dict d → ∃ c' dd, env.cls cls = some c' ∧
        instInit env n c' d [] false newCtx = .ok { converted := dd } ∧ w = .inst c'.name dd) := by
      unfold preSet at hp
      cases hty : fd.field.ty with
      | model cls =>
        rw [hty] at hp
        cases v with
        | undef => exact absurd rfl hv
        | dict d =>
          simp only [] at hp
          cases hcls : env.cls cls with
          | none => rw [hcls] at hp; cases hp
          | some c' =>
            rw [hcls] at hp
            simp only [newInstance, newCtx, Bool.false_eq_true, if_false] at hp
            split at hp
            · cases hp
            · rename_i dd hd
              injection hp with hp
              subst hp
              refine ⟨by simp, fun hno => absurd ⟨rfl, rfl⟩ (hno cls d), ?_⟩
              intro cls' d' h1 h2
              injection h1 with h1
              injection h2 with h2
              subst h1 h2
              refine ⟨c', dd, hcls, ?_, rfl⟩
              have hsrc : ({} : Inst).source d = d := by
                cases d <;> simp [Inst.source]
              have : runImport env n newCtx c' (.inst []) d = .ok dd := hd
              unfold instInit instConvert
              simp only [Bool.false_eq_true, if_false]
              have hctx : ({ valid := [] } : Inst).convertCtx { newCtx with trusted := [] } = newCtx := rfl
              have hcont : ({ valid := [] } : Inst).content = [] := rfl
              simp only [hsrc, hctx, hcont]
              simp only [newCtx, Bool.false_eq_true, if_false] at this ⊢
              rw [this]
              simp [Inst.afterConvert]
        | none => cases hp; exact ⟨by simp, fun _ => rfl, by intro _ _ _ h; cases h⟩
        | inst k d => cases hp; exact ⟨by simp, fun _ => rfl, by intro _ _ _ h; cases h⟩
        | _ => cases hp
      | _ =>
        rw [hty] at hp
        cases hp
        exact ⟨hv, fun _ => rfl, by intro _ _ h; cases h⟩
    have hraw := hI.raw
    refine ⟨⟨w, ?_, hw.2⟩, ?_⟩
    · rw [getAttr_plain hc hfd, lookup_noraw (by exact hraw)]
      simp only [Dict.get?_set_self, Option.some_or]
      exact definedOr_ok.2 ⟨rfl, hw.1⟩
    · intro fd' hfd' hne
      rw [getAttr_plain hc hfd', getAttr_plain hc hfd', lookup_noraw (by exact hraw), lookup_noraw hraw]
      simp only []
      rw [Dict.get?_set_ne _ _ (by simpa using Ne.symm hne)]

/-- **C33 (assignment succeeds).** Assigning to a field that is not a `ModelType` never raises. -/
theorem C33_assignment_succeeds (env : Env) (n : Nat) (c : ClassDef) (hc : c.WF) (I : Inst) (fd : FieldDef)
    (hfd : Plain c fd) (hty : ∀ cls, fd.field.ty ≠ .model cls) (v : Val) :
    (setAttr env n c I fd.name v).1 = .ok () := by
  rw [setAttr_plain hc hfd]
  have : preSet env n fd.field v = .ok v := by
    unfold preSet
    cases h : fd.field.ty with
    | model cls => exact absurd h (hty cls)
    | _ => rfl
  rw [this]

open Samples in
/-- **C33, counterexample** for `lazy=True`: `m = Item({'qty': 1}, lazy=True); m.qty = 2; m.qty` still
reads 1, the pending raw value. -/
theorem C33_counterexample_lazy :
    ∃ I I', instInit env 5 item [(.str "qty", .int 1)] [] true newCtx = .ok I ∧
      setAttr env 5 item I "qty" (.int 2) = (.ok (), I') ∧ getAttr item I' "qty" = .ok (.int 1) :=
  ⟨_, _, rfl, rfl, rfl⟩

/-! ## C34 -/

theorem get?_erase_self {d : Data} (h : d.Nodup) (k : Key) : Dict.get? (d.erase k) k = none := by
  simp [Dict.get?_erase h]

theorem lookup_isSome (I : Inst) (k : Key) : (I.lookup k).isSome = (I.raw.has k || I.converted.has k || I.valid.has k) := by
  unfold Inst.lookup Dict.has
  cases h1 : Dict.get? I.raw k <;> cases h2 : Dict.get? I.converted k <;> cases h3 : Dict.get? I.valid k <;> rfl

theorem delete_ok {I : Inst} {k : Key} : (I.delete k).1 = .ok () ↔
    (Dict.has (I.stale.getD I.valid) k || I.converted.has k || I.raw.has k) = true := by
  unfold Inst.delete
  simp only []
  split
  · rename_i h; simp [h]
  · rename_i h; simp [h]

/-- What deletion does, layer by layer. -/
theorem delete_lookup {I : Inst} (h : I.WF) {k : Key} {I' : Inst} (hd : I.delete k = (.ok (), I')) :
    (I'.lookup k = if I.stale.isSome then Dict.get? I.valid k else none) ∧
    ∀ k', k' ≠ k → I'.lookup k' = I.lookup k' := by
  unfold Inst.delete at hd
  simp only [] at hd
  split at hd
  · injection hd with _ hd
    subst hd
    constructor
    · unfold Inst.lookup
      simp only [get?_erase_self h.raw, get?_erase_self h.converted]
      cases I.stale with
      | none => simp [get?_erase_self h.valid]
      | some d => simp
    · intro k' hk
      unfold Inst.lookup
      simp only [Dict.get?_erase_ne _ (Ne.symm hk)]
      cases I.stale with
      | none => simp [Dict.get?_erase_ne _ (Ne.symm hk)]
      | some d => simp
  · injection hd with hd; cases hd

/-- **C34 (before any validation).**  As long as no validation has been run on the instance
(`stale = none`, see `C34_never_validated`), `del m.f` succeeds exactly when `m.f` is stored; then `m.f`
is undefined and every other field reads as before. -/
theorem C34_delete (env : Env) (n : Nat) (c : ClassDef) (hc : c.WF) (hp : NodupValidators c) (I : Inst)
    (b : Bool) (hI : Reachable env n c b I) (hs : I.stale = none) (fd : FieldDef) (hfd : Plain c fd) :
    ((delAttr c I fd.name).1 = .ok () ↔ (I.lookup (.str fd.name)).isSome) ∧
    ∀ I', delAttr c I fd.name = (.ok (), I') → Undefined c I' fd.name ∧
      ∀ fd', Plain c fd' → fd'.name ≠ fd.name → getAttr c I' fd'.name = getAttr c I fd'.name := by
  have hwf := hI.wf hc hp
  rw [delAttr_plain hc hfd]
  constructor
  · rw [delete_ok, hs, lookup_isSome]
    simp [Bool.or_comm, or_assoc]
  · intro I' h
    obtain ⟨h1, h2⟩ := delete_lookup hwf h
    rw [hs] at h1
    constructor
    · unfold Undefined
      rw [getAttr_plain hc hfd, h1]
      rfl
    · intro fd' hfd' hne
      rw [getAttr_plain hc hfd', getAttr_plain hc hfd', h2 _ (by simpa using hne)]

/-- **C34 (after a validation).**  In every state, a successful `del m.f` leaves `m.f` undefined or,
when a validation has been run, makes the last validated value visible again; `del m.f` succeeds
iff `f` is in the pending or converted data, or in the data of before the *first* validation. -/
theorem C34_delete_exact (env : Env) (n : Nat) (c : ClassDef) (hc : c.WF) (hp : NodupValidators c) (I : Inst)
    (b : Bool) (hI : Reachable env n c b I) (fd : FieldDef) (hfd : Plain c fd) :
    ((delAttr c I fd.name).1 = .ok () ↔ Key.str fd.name ∈ (I.stale.getD I.valid).keys ∨
      Key.str fd.name ∈ I.converted.keys ∨ Key.str fd.name ∈ I.raw.keys) ∧
    ∀ I', delAttr c I fd.name = (.ok (), I') →
      (I.stale = none → Undefined c I' fd.name) ∧
      (I.stale ≠ none → getAttr c I' fd.name = definedOr (Dict.get? I.valid (.str fd.name))) := by
  have hwf := hI.wf hc hp
  rw [delAttr_plain hc hfd]
  constructor
  · unfold Inst.delete
    simp only [← Dict.has_iff]
    split
    · rename_i h
      simp only [Bool.or_eq_true] at h
      simp [← or_assoc, h]
    · rename_i h
      simp only [Bool.or_eq_true] at h
      simp [← or_assoc, h]
  · intro I' h
    obtain ⟨h1, _⟩ := delete_lookup hwf h
    constructor
    · intro hs
      unfold Undefined
      rw [getAttr_plain hc hfd, h1, hs]
      rfl
    · intro hs
      rw [getAttr_plain hc hfd, h1]
      cases hst : I.stale with
      | none => exact absurd hst hs
      | some d => rfl

/-- Without validation the state never becomes `stale`: instances built without `validate=True` and
changed only by assignments, deletions and non-validating imports. -/
theorem C34_never_validated (env : Env) (n : Nat) (c : ClassDef) (I : Inst) (hs : I.stale = none) :
    (∀ name v, (Op.run env n c I (.set name v)).stale = none) ∧
    (∀ name, (Op.run env n c I (.del name)).stale = none) ∧
    (∀ raw ctx, ctx.validate = false → (Op.run env n c I (.importData raw ctx)).stale = none) ∧
    (∀ raw trusted b ctx J, ctx.validate = false → instInit env n c raw trusted b ctx = .ok J → J.stale = none) := by
  refine ⟨?_, ?_, ?_, ?_⟩
  · intro name v
    simp only [Op.run, setAttr]
    repeat' split
    all_goals exact hs
  · intro name
    simp only [Op.run, delAttr, Inst.delete]
    repeat' split
    all_goals simp [hs]
  · intro raw ctx hv
    simp only [Op.run, instImport]
    cases hi : instConvert env n c I raw { ctx with trusted := c.view I.content } with
    | mk r I1 =>
      have h1 : I1.stale = none := by
        unfold instConvert at hi
        injection hi with _ h2
        rw [← h2, (afterConvert_valid ..).2, hs]
      cases r with
      | error e => exact h1
      | ok d => simp [hv, h1]
  · intro raw trusted b ctx J hv h
    unfold instInit at h
    split at h
    · injection h with h; subst h; rfl
    · cases hi : instConvert env n c { valid := trusted } raw { ctx with trusted := trusted } with
      | mk r I1 =>
        have h1 : I1.stale = none := by
          unfold instConvert at hi
          injection hi with _ h2
          rw [← h2, (afterConvert_valid ..).2]
        rw [hi] at h
        cases r with
        | error e => cases h
        | ok d =>
          simp only [hv, Bool.false_eq_true, if_false] at h
          injection h with h
          subst h
          exact h1

open Samples in
/-- **C34, counterexample** after a validation: `m = Item({'qty': 1}); m.validate(); del m.qty` raises `KeyError`. -/
theorem C34_counterexample_after_validation :
    ∃ I, instInit env 5 item [(.str "qty", .int 1)] [] false newCtx = .ok I ∧
      ((instValidate env 5 item I {}).1 = .ok ()) ∧
      (delAttr item (instValidate env 5 item I {}).2 "qty").1 = .error (.other "KeyError") ∧
      getAttr item (delAttr item (instValidate env 5 item I {}).2 "qty").2 "qty" = .ok (.int 1) :=
  ⟨_, rfl, rfl, rfl, rfl⟩

open Samples in
/-- **C34, counterexample**, second form: `m = Item({'qty': 1}); m.validate(); m.qty = 2; del m.qty` succeeds and
`m.qty` is 1 again. -/
theorem C34_counterexample_resurfacing :
    ∃ I, instInit env 5 item [(.str "qty", .int 1)] [] false newCtx = .ok I ∧
      let J := runOps env 5 item I [.validate {}, .set "qty" (.int 2)]
      (delAttr item J "qty").1 = .ok () ∧ getAttr item (delAttr item J "qty").2 "qty" = .ok (.int 1) :=
  ⟨_, rfl, rfl, rfl⟩

/-! ## C35 -/

/-- **C35.** On every instance created without `lazy=True`, after any history: if `import_data` (without
validation) raises anything, the whole state of the instance is what it was. -/
theorem C35_failed_import_unchanged (env : Env) (n : Nat) (c : ClassDef) (I : Inst) (hI : Reachable env n c true I)
    (raw : Data) (ctx : Ctx) (hv : ctx.validate = false) (e : Exc) (I' : Inst)
    (h : instImport env n c I raw ctx = (.error e, I')) : I' = I := by
  unfold instImport at h
  cases hi : instConvert env n c I raw { ctx with trusted := c.view I.content } with
  | mk r I1 =>
    rw [hi] at h
    cases r with
    | ok d => simp [hv] at h
    | error e' =>
      simp only [] at h
      injection h with _ h
      subst h
      unfold instConvert at hi
      injection hi with _ h2
      rw [← h2]
      have hcv : (I.convertCtx { ctx with trusted := c.view I.content }).validate = false := hv
      unfold Inst.afterConvert
      simp only [hcv, Bool.false_eq_true, if_false]
      have := hI.raw
      cases I
      simp_all

open Samples in
/-- **C35, counterexample** for `lazy=True`: a failed `import_data` throws the pending raw data away
(`m = Item({'qty': 1}, lazy=True)`, then a failing import of `{'qty': 'x'}`: `m.qty` is undefined). -/
theorem C35_counterexample_lazy :
    ∃ I I' es p, instInit env 5 item [(.str "qty", .int 1)] [] true newCtx = .ok I ∧
      getAttr item I "qty" = .ok (.int 1) ∧
      instImport env 5 item I [(.str "qty", .str "x")] {} = (.error (.data es p), I') ∧ Undefined item I' "qty" :=
  ⟨_, _, _, _, rfl, rfl, rfl, rfl⟩

/-! ## C36 -/

/-- Successful `import_data` without validation, field by field. -/
theorem instImport_read {env : Env} {n : Nat} {c : ClassDef} (hc : c.WF) {I I' : Inst} (hwf : I.WF)
    {raw0 raw : Data} (hsrc : I.source raw0 = raw) {ctx : Ctx} (hv : ctx.validate = false)
    (h : instImport env n c I raw0 ctx = (.ok (), I')) {fd : FieldDef} (hfd : Plain c fd) :
    ∃ o, fieldRes (fieldConv env n) env (I.convertCtx { ctx with trusted := c.view I.content }) raw fd = .ok o ∧
      o.err = none ∧ I'.lookup (.str fd.name) = o.stored.or (I.lookup (.str fd.name)) := by
  unfold instImport instConvert at h
  have hcv : ({ ctx with trusted := c.view I.content } : Ctx).validate = false := hv
  generalize hctx' : I.convertCtx { ctx with trusted := c.view I.content } = ctx' at *
  have hval' : ctx'.validate = false := by rw [← hctx']; exact hv
  have htr' : ctx'.trusted = c.view I.content := by rw [← hctx']; rfl
  simp only [hv, Bool.false_eq_true, if_false, hsrc] at h
  have hI1 : I.afterConvert env n ctx' c raw0 = { I with raw := [] } := by
    unfold Inst.afterConvert
    simp [hval']
  rw [hI1] at h
  have hrun : ∀ mu, runImport env n ctx' c mu raw = importBody (fieldConv env n) env ctx' c raw [] := by
    intro mu
    exact runImport_conv hval' ..
  rw [hrun] at h
  cases hb : importBody (fieldConv env n) env ctx' c raw [] with
  | error e => rw [hb] at h; cases h
  | ok d =>
    rw [hb] at h
    simp only [] at h
    injection h with _ h
    subst h
    have hdn : d.Nodup := by
      have := importBody_data_nodup (rec := fieldConv env n) (env := env) (ctx := ctx') (raw := raw) (errs0 := []) hc
        (by rw [htr']; exact view_nodup hc _)
      rw [hb] at this
      exact this
    rw [importBody_eq _ _ _ _ hc] at hb
    cases hos : outcomes (fieldRes (fieldConv env n) env ctx' raw) (c.loopFields ctx') with
    | error e => rw [hos] at hb; cases hb
    | ok os =>
      rw [hos] at hb
      simp only [] at hb
      split at hb
      · rename_i hemp
        injection hb with hb
        rw [List.isEmpty_iff, applyAll_errs_empty] at hemp
        have hl : fd ∈ c.loopFields ctx' := mem_loopFields.2 ⟨hfd.mem, Or.inr hfd.set⟩
        have hmem : fd ∈ os.map (·.1) := by rw [outcomes_map_fst hos]; exact hl
        obtain ⟨⟨fd', o⟩, hpo, heq⟩ := List.mem_map.1 hmem
        simp only [] at heq
        subst heq
        have ho := outcomes_mem hos _ hpo
        have herr := hemp.2 _ hpo
        refine ⟨o, ho, herr, ?_⟩
        have hdat := importBody_data hc hos hl (startErrs ctx' c raw []) ho
        rw [hb] at hdat
        rw [lookup_noraw rfl]
        simp only []
        rw [Dict.get?_update _ _ hdn, hdat, htr', view_get hc hfd.mem hfd.set hfd.get, Inst.content_get hwf]
        unfold Inst.lookup
        cases o.stored <;> cases Dict.get? I.raw (Key.str fd'.name) <;> cases Dict.get? I.converted (Key.str fd'.name) <;> simp
      · cases hb

theorem source_eager {I : Inst} (hraw : I.raw = []) {raw : Data} (hne : raw ≠ []) : I.source raw = raw := by
  unfold Inst.source
  rw [hraw]
  cases raw with
  | nil => exact absurd rfl hne
  | cons x xs => rfl

theorem source_get {I : Inst} {raw : Data} (hne : raw ≠ []) (hn : raw.Nodup) (k : Key) :
    (I.source raw).get? k = (raw.get? k).or (I.raw.get? k) := by
  unfold Inst.source
  have he : raw.isEmpty = false := by cases raw with | nil => exact absurd rfl hne | cons x xs => rfl
  simp only [he, Bool.false_eq_true, if_false]
  cases hr : I.raw with
  | nil => simp
  | cons x xs =>
    simp only [List.isEmpty_cons, Bool.false_eq_true, if_false]
    rw [Dict.get?_update _ _ hn]

theorem firstPresent_congr {d d' : Data} (h : ∀ k, d.get? k = d'.get? k) {ss : List String} {v : Val} (hf : FirstPresent d ss v) :
    FirstPresent d' ss v := by
  induction hf with
  | here h1 => exact .here (by rw [← h]; exact h1)
  | later h1 _ ih => exact .later (by rw [← h]; exact h1) ih

/-- The core of C36. -/
theorem import_core (env : Env) (n : Nat) (c : ClassDef) (hc : c.WF)
    (I I' : Inst) (hwf : I.WF) (raw0 raw : Data) (hsrc : I.source raw0 = raw) (ctx : Ctx)
    (hv : ctx.validate = false) (hi : ctx.init = false) (hd : ctx.defaults = false)
    (h : instImport env n c I raw0 ctx = (.ok (), I')) (fd : FieldDef) (hfd : Plain c fd) :
    (AllAbsent raw (ownNames ctx.mapping fd) → getAttr c I' fd.name = getAttr c I fd.name) ∧
    (∀ v, v ≠ .undef → AliasesOk ctx.mapping fd → FirstPresent raw (ownNames ctx.mapping fd) v →
      ∃ w ctx', fieldConv env n ctx' true fd.field v = .ok w ∧
        (fd.field.ty.isCompound = false ∨ ctx.recursive = false → ctx'.trusted = [] ∨ fd.field.ty.isCompound = false) ∧
        ctx'.app = ctx.app ∧ ctx'.conv = .imp ∧ ctx'.oo = true ∧ ctx'.init = false ∧ ctx'.defaults = false ∧
        ctx'.partial_ = ctx.partial_ ∧ ctx'.strict = ctx.strict ∧ ctx'.validate = false ∧
        (w ≠ .undef → getAttr c I' fd.name = .ok w)) := by
  obtain ⟨o, ho, herr, hlook⟩ := instImport_read hc hwf hsrc hv h hfd
  generalize hctx' : I.convertCtx { ctx with trusted := c.view I.content } = ctx' at *
  have hmap : ctx'.mapping = ctx.mapping := by rw [← hctx']; rfl
  have hdef : ctx'.defaults = false := by rw [← hctx']; exact hd
  have hini : ctx'.init = false := by rw [← hctx']; exact hi
  rw [getAttr_plain hc hfd, getAttr_plain hc hfd, hlook]
  unfold fieldRes fieldOutcome at ho
  simp only [] at ho
  constructor
  · intro habs
    have hin : inputValue raw ctx'.mapping fd = .undef := by rw [hmap]; exact inputValue_absent habs
    rw [hin] at ho
    have hfill : fillValue ctx' fd .undef = .undef := by simp [fillValue, hdef, hini]
    rw [hfill] at ho
    split at ho
    · injection ho with ho; subst ho; simp [Outcome.stored]
    · split at ho
      · rename_i w hw
        have hwu : w.isUndef = true := by
          rw [fieldConv_empty rfl hw]; rfl
        rw [if_pos hwu] at ho
        injection ho with ho; subst ho; simp [Outcome.stored]
      · split at ho
        · injection ho with ho; subst ho; cases herr
        · cases ho
  · intro v hvu ha hf
    have hin : inputValue raw ctx'.mapping fd = v := by rw [hmap]; exact inputValue_first ha hvu hf
    have hu : v.isUndef = false := by
      cases hh : v.isUndef with
      | false => rfl
      | true => exact absurd ((Val.isUndef_iff v).1 hh) hvu
    rw [hin] at ho
    have hfill : fillValue ctx' fd v = v := by simp [fillValue, hu]
    rw [hfill, hu] at ho
    simp only [Bool.false_and, Bool.false_eq_true, if_false] at ho
    split at ho
    · rename_i w hw
      refine ⟨w, _, hw, ?_, ?_, ?_, ?_, ?_, ?_, ?_, ?_, ?_, ?_⟩
      · cases hcp : fd.field.ty.isCompound with
        | false => intro _; exact Or.inr rfl
        | true =>
          intro hor
          left
          have hr : ctx'.recursive = false := by
            rw [← hctx']
            rcases hor with h | h
            · cases h
            · exact h
          simp [subCtx, hr]
      all_goals first
        | (split <;> (rw [← hctx']; first | rfl | exact hi | exact hd | exact hv | simp [subCtx, Inst.convertCtx, hv, hi, hd]))
        | skip
      intro hwu
      have : w.isUndef = false := by
        cases hh : w.isUndef with
        | false => rfl
        | true => exact absurd ((Val.isUndef_iff w).1 hh) hwu
      rw [this] at ho
      simp only [Bool.false_eq_true, if_false] at ho
      injection ho with ho
      subst ho
      simp only [Outcome.stored, Option.some_or]
      exact definedOr_ok.2 ⟨rfl, hwu⟩
    · split at ho
      · injection ho with ho; subst ho; cases herr
      · cases ho

/-- **C36.** On every instance created without `lazy=True`, after any history: if
`m.import_data(raw)` (non-empty input, no validation, `init_values` and `apply_defaults` off as by
default) succeeds, then
1. every field with none of its names in the input keeps reading exactly as before;
2. every field given in the input by its first present name reads the converted input value. -/
theorem C36_import_updates_given (env : Env) (n : Nat) (c : ClassDef) (hc : c.WF) (hp : NodupValidators c)
    (I I' : Inst) (hI : Reachable env n c true I) (raw : Data) (hne : raw ≠ []) (ctx : Ctx)
    (hv : ctx.validate = false) (hi : ctx.init = false) (hd : ctx.defaults = false)
    (h : instImport env n c I raw ctx = (.ok (), I')) (fd : FieldDef) (hfd : Plain c fd) :
    (AllAbsent raw (ownNames ctx.mapping fd) → getAttr c I' fd.name = getAttr c I fd.name) ∧
    (∀ v, v ≠ .undef → AliasesOk ctx.mapping fd → FirstPresent raw (ownNames ctx.mapping fd) v →
      ∃ w ctx', fieldConv env n ctx' true fd.field v = .ok w ∧
        (fd.field.ty.isCompound = false ∨ ctx.recursive = false → ctx'.trusted = [] ∨ fd.field.ty.isCompound = false) ∧
        ctx'.app = ctx.app ∧ ctx'.conv = .imp ∧ ctx'.oo = true ∧ ctx'.init = false ∧ ctx'.defaults = false ∧
        ctx'.partial_ = ctx.partial_ ∧ ctx'.strict = ctx.strict ∧ ctx'.validate = false ∧
        (w ≠ .undef → getAttr c I' fd.name = .ok w)) :=
  import_core env n c hc I I' (hI.wf hc hp) raw raw (source_eager hI.raw hne) ctx hv hi hd h fd hfd

/-- **C36**, for instances that still hold raw data (created with `lazy=True`): the same, with the input completed by the pending raw data.  A
key given in the input wins over the pending one. -/
theorem C36_import_into_lazy (env : Env) (n : Nat) (c : ClassDef) (hc : c.WF) (hp : NodupValidators c)
    (I I' : Inst) (b : Bool) (hI : Reachable env n c b I) (raw : Data) (hne : raw ≠ []) (hn : raw.Nodup) (ctx : Ctx)
    (hv : ctx.validate = false) (hi : ctx.init = false) (hd : ctx.defaults = false)
    (h : instImport env n c I raw ctx = (.ok (), I')) (fd : FieldDef) (hfd : Plain c fd)
    (merged : Data) (hm : ∀ k, merged.get? k = (raw.get? k).or (I.raw.get? k)) :
    (AllAbsent merged (ownNames ctx.mapping fd) → getAttr c I' fd.name = getAttr c I fd.name) ∧
    (∀ v, v ≠ .undef → AliasesOk ctx.mapping fd → FirstPresent merged (ownNames ctx.mapping fd) v →
      ∃ w ctx', fieldConv env n ctx' true fd.field v = .ok w ∧
        (fd.field.ty.isCompound = false ∨ ctx.recursive = false → ctx'.trusted = [] ∨ fd.field.ty.isCompound = false) ∧
        ctx'.app = ctx.app ∧ ctx'.conv = .imp ∧ ctx'.oo = true ∧ ctx'.init = false ∧ ctx'.defaults = false ∧
        ctx'.partial_ = ctx.partial_ ∧ ctx'.strict = ctx.strict ∧ ctx'.validate = false ∧
        (w ≠ .undef → getAttr c I' fd.name = .ok w)) := by
  have hs := source_get (I := I) hne hn
  obtain ⟨h1, h2⟩ := import_core env n c hc I I' (hI.wf hc hp) raw _ rfl ctx hv hi hd h fd hfd
  refine ⟨fun ha => h1 fun s hs' => ?_, fun v hvu hal hf => h2 v hvu hal ?_⟩
  · rw [hs, ← hm]; exact ha s hs'
  · exact firstPresent_congr (fun k => by rw [hs, hm]) hf

open Samples in
/-- **C36, counterexample** for the empty input: `import_data({})` re-converts pending values.
`m = Item({'qty': 1}); m.tag = 5; m.import_data({}); m.tag` is `'5'`, whereas importing an unrelated
field leaves `m.tag` alone. -/
theorem C36_counterexample_empty_input :
    ∃ I, instInit env 5 item [(.str "qty", .int 1)] [] false newCtx = .ok I ∧
      let J := (setAttr env 5 item I "tag" (.int 5)).2
      getAttr item J "tag" = .ok (.int 5) ∧
      (instImport env 5 item J [] {}).1 = .ok () ∧
      getAttr item (instImport env 5 item J [] {}).2 "tag" = .ok (.str "5") ∧
      getAttr item (instImport env 5 item J [(.str "qty", .int 2)] {}).2 "tag" = .ok (.int 5) :=
  ⟨_, rfl, rfl, rfl, rfl, rfl⟩

/-! ## The hypotheses are met -/

namespace Samples

/-- `Item({'qty': 1, 'label': 'a'})` -/
def itemI : Inst := { converted := [(.str "qty", .int 1), (.str "tag", .str "a")] }

theorem itemI_new : instInit env 5 item [(.str "qty", .int 1), (.str "label", .str "a")] [] false newCtx = .ok itemI := rfl

theorem itemI_reachable : Reachable env 5 item true itemI :=
  .new (by unfold Dict.Nodup; decide) (by unfold Dict.Nodup; decide) (fun _ => rfl) itemI_new

/-- ... `; m.validate(); m.qty = 7` -/
def itemJ : Inst :=
  { converted := [(.str "qty", .int 7)], valid := [(.str "qty", .int 1), (.str "tag", .str "a")], stale := some [] }

theorem itemJ_run : runOps env 5 item itemI [.validate {}, .set "qty" (.int 7)] = itemJ := rfl

theorem itemJ_reachable : Reachable env 5 item true itemJ :=
  .step (.set "qty" (.int 7)) (.step (.validate {}) itemI_reachable)

theorem qty_plain : Plain item { name := "qty", field := .mk (.leaf intLeaf) { required := true } } :=
  ⟨by simp [item], rfl, rfl⟩
theorem tag_plain : Plain item { name := "tag", field := .mk (.leaf strLeaf) { serializedName := some "label" } } :=
  ⟨by simp [item], rfl, rfl⟩

theorem item_nodupV : NodupValidators item := by intro nf h; cases h

example : getAttr item (setAttr env 5 item itemJ "tag" (.str "z")).2 "qty" = getAttr item itemJ "qty" :=
  (C33_read_after_write env 5 item item_wf itemJ _ itemJ_reachable _ tag_plain (.str "z") (by simp) rfl).2 _ qty_plain
    (by decide)
example : getAttr item itemJ "qty" = .ok (.int 7) ∧ getAttr item itemJ "tag" = .ok (.str "a") := ⟨rfl, rfl⟩
example : (setAttr env 5 item itemJ "tag" (.str "z")).1 = .ok () :=
  C33_assignment_succeeds env 5 item item_wf itemJ _ tag_plain (by intro _ h; cases h) _
example : Undefined item (delAttr item itemI "tag").2 "tag" :=
  ((C34_delete env 5 item item_wf item_nodupV itemI true itemI_reachable rfl _ tag_plain).2 _ rfl).1
example : getAttr item (delAttr item itemJ "qty").2 "qty" = .ok (.int 1) :=
  ((C34_delete_exact env 5 item item_wf item_nodupV itemJ true itemJ_reachable _ qty_plain).2 _ rfl).2 (by simp [itemJ])
example : (Op.run env 5 item itemI (.set "qty" (.int 3))).stale = none :=
  (C34_never_validated env 5 item itemI rfl).1 _ _
example : ∃ e I', instImport env 5 item itemJ [(.str "qty", .str "x")] {} = (.error e, I') ∧ I' = itemJ :=
  ⟨_, _, rfl, C35_failed_import_unchanged env 5 item itemJ itemJ_reachable [(.str "qty", .str "x")] {} rfl _ _ rfl⟩
example : getAttr item (instImport env 5 item itemJ [(.str "qty", .int 9)] {}).2 "tag" = getAttr item itemJ "tag" :=
  (C36_import_updates_given env 5 item item_wf item_nodupV itemJ _ itemJ_reachable [(.str "qty", .int 9)] (by simp)
    {} rfl rfl rfl rfl _ tag_plain).1 (by
      intro k hk
      have : k ∈ ["tag", "label"] := hk
      simp at this
      rcases this with rfl | rfl <;> rfl)

end Samples

end Verif
