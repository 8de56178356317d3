import Verif.Props.Instance3

/-!
# C91: unexpected exceptions

A custom validator, getter or setter may raise any exception, not only the library's own errors.  What is left of the instance then?
-/
namespace Verif

/-- The exception is not a `DataError`: an unexpected exception that escapes from the call. -/
def Unexpected (e : Exc) : Prop := ∀ es p, e ≠ .data es p

/-- An assignment or an import without validation. -/
def Op.Pending : Op → Prop
  | .set _ _ => True
  | .importData _ ctx => ctx.validate = false
  | _ => False

/-! ## Lemmas -/

theorem afterConvert_layers (env : Env) (n : Nat) (ctx : Ctx) (c : ClassDef) (I : Inst) (raw : Data) :
    (I.afterConvert env n ctx c raw).valid = I.valid ∧ (I.afterConvert env n ctx c raw).raw = [] := by
  unfold Inst.afterConvert
  simp only
  split
  · split <;> exact ⟨rfl, rfl⟩
  · exact ⟨rfl, rfl⟩

theorem instConvert_state (env : Env) (n : Nat) (c : ClassDef) (I : Inst) (raw : Data) (ctx : Ctx) :
    (instConvert env n c I raw ctx).2.valid = I.valid ∧ (instConvert env n c I raw ctx).2.raw = [] :=
  afterConvert_layers env n _ c I raw

theorem pending_valid (env : Env) (n : Nat) (c : ClassDef) (I : Inst) (op : Op) (h : op.Pending) : (op.run env n c I).valid = I.valid := by
  cases op with
  | set name v =>
    show (setAttr env n c I name v).2.valid = _
    unfold setAttr
    split
    · rfl
    · split
      · split
        · rfl
        · split
          · rfl
          · split <;> rfl
      · split <;> rfl
  | importData raw ctx =>
    have hv : ctx.validate = false := h
    show (instImport env n c I raw ctx).2.valid = _
    unfold instImport
    have hs := instConvert_state env n c I raw { ctx with trusted := c.view I.content }
    split
    · rename_i heq; rw [heq] at hs; exact hs.1
    · rename_i heq
      rw [heq] at hs
      simp only [hv, Bool.false_eq_true, if_false]
      exact hs.1
  | del name => exact absurd h id
  | validate ctx => exact absurd h id
  | serialize ectx => exact absurd h id

theorem runOps_valid (env : Env) (n : Nat) (c : ClassDef) (ops : List Op) : ∀ I, (∀ op ∈ ops, op.Pending) → (runOps env n c I ops).valid = I.valid := by
  induction ops with
  | nil => intro I _; rfl
  | cons op ops ih =>
    intro I h
    rw [runOps, ih _ fun o ho => h o (by simp [ho]), pending_valid env n c I op (h op (by simp))]

theorem runOps_reachable {env : Env} {n : Nat} {c : ClassDef} {b : Bool} (ops : List Op) : ∀ {I : Inst}, Reachable env n c b I →
    Reachable env n c b (runOps env n c I ops) := by
  induction ops with
  | nil => intro I h; exact h
  | cons op ops ih => intro I h; exact ih (.step op h)

theorem validate_crash_state {env : Env} {n : Nat} {c : ClassDef} {I I' : Inst} {ctx : Ctx} {e : Exc} (hu : Unexpected e)
    (h : instValidate env n c I ctx = (.error e, I')) : I'.valid = I.valid ∧ I'.converted = [] ∧ I'.raw = [] := by
  unfold instValidate at h
  split at h
  · cases h
  · have hs := instConvert_state env n c I [] { ctx with validate := true, trusted := [] }
    split at h
    · cases h
    · cases h; exact absurd rfl (hu _ _)
    · rename_i heq
      rw [heq] at hs
      cases h
      exact ⟨hs.1, rfl, hs.2⟩

/-- Right after a call of `validate()`, whatever its outcome, nothing is pending. -/
theorem validate_nothing_pending (env : Env) (n : Nat) (c : ClassDef) (I : Inst) (hr : I.raw = []) (ctx : Ctx) :
    (instValidate env n c I ctx).2.converted = [] ∧ (instValidate env n c I ctx).2.raw = [] := by
  unfold instValidate
  split
  · rename_i h
    rw [Bool.and_eq_true] at h
    exact ⟨List.isEmpty_iff.1 h.1, hr⟩
  · have hs := instConvert_state env n c I [] { ctx with validate := true, trusted := [] }
    split
    · rename_i heq; rw [heq] at hs; exact ⟨rfl, hs.2⟩
    · rename_i heq; rw [heq] at hs; exact ⟨rfl, hs.2⟩
    · rename_i heq; rw [heq] at hs; exact ⟨rfl, hs.2⟩

theorem lookup_of_valid {I : Inst} (hc : I.converted = []) (hr : I.raw = []) (k : Key) : I.lookup k = Dict.get? I.valid k := by
  rw [lookup_noraw hr, hc]; rfl

/-! ## The theorems -/

/-- **C91, rollback.**  On every instance created without `lazy=True`, after any history: take the state right after a call of `validate()`
(successful or not), then any number of assignments and imports (successful or not).  If `validate()` now ends with an unexpected exception, every
field reads as it did right after the earlier `validate()`: the pending values are gone, and nothing of the aborted run is visible. -/
theorem C91_rollback (env : Env) (n : Nat) (c : ClassDef) (hc : c.WF) (I0 : Inst) (hI : Reachable env n c true I0) (ctx0 ctx : Ctx)
    (ops : List Op) (hops : ∀ op ∈ ops, op.Pending) (e : Exc) (hu : Unexpected e) (I2 : Inst)
    (h : instValidate env n c (runOps env n c (instValidate env n c I0 ctx0).2 ops) ctx = (.error e, I2)) (fd : FieldDef) (hfd : Plain c fd) :
    getAttr c I2 fd.name = getAttr c (instValidate env n c I0 ctx0).2 fd.name := by
  have h1 := validate_nothing_pending env n c I0 hI.raw ctx0
  have h2 := validate_crash_state hu h
  rw [getAttr_plain hc hfd, getAttr_plain hc hfd, lookup_of_valid h1.1 h1.2, lookup_of_valid h2.2.1 h2.2.2, h2.1,
    runOps_valid env n c ops _ hops]

/-- **C91, computed fields.**  Likewise for the fields computed by a getter from the fields of the instance: the whole content is the same. -/
theorem C91_rollback_content (env : Env) (n : Nat) (c : ClassDef) (I0 : Inst) (hI : Reachable env n c true I0) (ctx0 ctx : Ctx)
    (ops : List Op) (hops : ∀ op ∈ ops, op.Pending) (e : Exc) (hu : Unexpected e) (I2 : Inst)
    (h : instValidate env n c (runOps env n c (instValidate env n c I0 ctx0).2 ops) ctx = (.error e, I2)) (name : String) :
    getAttr c I2 name = getAttr c (instValidate env n c I0 ctx0).2 name := by
  have h1 := validate_nothing_pending env n c I0 hI.raw ctx0
  have h2 := validate_crash_state hu h
  have hv : I2.valid = (instValidate env n c I0 ctx0).2.valid := by rw [h2.1, runOps_valid env n c ops _ hops]
  have hcont : I2.content = (instValidate env n c I0 ctx0).2.content := by
    unfold Inst.content
    rw [h2.2.1, h2.2.2, h1.1, h1.2, hv]
  unfold getAttr
  rw [hcont, lookup_of_valid h1.1 h1.2, lookup_of_valid h2.2.1 h2.2.2, hv]

/-- **C91, serialization.**  The same holds for `serialize()` when its validation ends with an unexpected exception. -/
theorem C91_serialize_rollback (env : Env) (n : Nat) (c : ClassDef) (hc : c.WF) (I0 : Inst) (hI : Reachable env n c true I0) (ctx0 : Ctx)
    (ectx : ECtx) (ops : List Op) (hops : ∀ op ∈ ops, op.Pending) (e : Exc) (hu : Unexpected e)
    (h : (instValidate env n c (runOps env n c (instValidate env n c I0 ctx0).2 ops) { defaults := true, validate := true }).1 = .error e)
    (fd : FieldDef) (hfd : Plain c fd) :
    (instSerialize env n c (runOps env n c (instValidate env n c I0 ctx0).2 ops) ectx).1 = .error e ∧
    getAttr c (instSerialize env n c (runOps env n c (instValidate env n c I0 ctx0).2 ops) ectx).2 fd.name =
      getAttr c (instValidate env n c I0 ctx0).2 fd.name := by
  cases hv : instValidate env n c (runOps env n c (instValidate env n c I0 ctx0).2 ops) { defaults := true, validate := true } with
  | mk r I2 =>
    rw [hv] at h
    simp only at h
    subst h
    have hs : instSerialize env n c (runOps env n c (instValidate env n c I0 ctx0).2 ops) ectx = (.error e, I2) := by
      unfold instSerialize
      simp only
      rw [hv]
      cases e with
      | data es p => exact absurd rfl (hu es p)
      | _ => rfl
    rw [hs]
    exact ⟨rfl, C91_rollback env n c hc I0 hI ctx0 _ ops hops e hu I2 hv fd hfd⟩

/-- **C91, assignment and deletion** are all or nothing: whatever they raise, the instance is as before. -/
theorem C91_failed_access_unchanged (env : Env) (n : Nat) (c : ClassDef) (I I' : Inst) (name : String) (e : Exc) :
    (∀ v, setAttr env n c I name v = (.error e, I') → I' = I) ∧ (delAttr c I name = (.error e, I') → I' = I) := by
  constructor
  · intro v h
    unfold setAttr at h
    split at h
    · cases h; rfl
    · split at h
      · split at h
        · cases h; rfl
        · split at h
          · cases h; rfl
          · split at h
            · cases h; rfl
            · cases h
      · split at h
        · cases h; rfl
        · cases h
  · intro h
    unfold delAttr at h
    split at h
    · cases h; rfl
    · split at h
      · cases h; rfl
      · unfold Inst.delete at h
        simp only at h
        split at h
        · cases h
        · cases h; rfl

/-! ## The hypotheses are met -/

/-- A class whose validator raises `TypeError` for 13. -/
def Samples.unlucky : ClassDef where
  name := "Unlucky"
  fields := [
    { name := "f", field := .mk (.leaf Samples.intLeaf) { validators := [fun _ v => match v with | .int 13 => .error (.other "TypeError") | _ => .ok ()] } },
    { name := "g", field := Samples.intF }]

open Samples in
/-- `m = Unlucky({'f': 1, 'g': 2}); m.validate(); m.g = 3; m.import_data({'f': 13}); m.validate()` raises `TypeError`, and `m.f` is 1, `m.g` is 2. -/
example : ∃ I0 I2, instInit env 5 unlucky [(.str "f", .int 1), (.str "g", .int 2)] [] false newCtx = .ok I0 ∧
    instValidate env 5 unlucky (runOps env 5 unlucky (instValidate env 5 unlucky I0 {}).2
      [.set "g" (.int 3), .importData [(.str "f", .int 13)] newCtx]) {} = (.error (.other "TypeError"), I2) ∧
    getAttr unlucky I2 "f" = .ok (.int 1) ∧ getAttr unlucky I2 "g" = .ok (.int 2) ∧
    getAttr unlucky (runOps env 5 unlucky (instValidate env 5 unlucky I0 {}).2
      [.set "g" (.int 3), .importData [(.str "f", .int 13)] newCtx]) "g" = .ok (.int 3) := ⟨_, _, rfl, rfl, rfl, rfl, rfl⟩

end Verif
