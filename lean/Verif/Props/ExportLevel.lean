import Verif.Samples
import Verif.Props.ExportDeep

/-! # Export level precedence (C29) -/
namespace Verif

/-! ## Specification vocabulary: changing levels everywhere -/

mutual
/-- The type with the export level of every inner field replaced by `ρ`. -/
def FType.relevel (ρ : FieldOpts → Option Nat) : FType → FType
  | .leaf l => .leaf l
  | .list inner mn mx => .list (inner.relevel ρ) mn mx
  | .dict inner co => .dict (inner.relevel ρ) co
  | .model c => .model c
  | .poly p => .poly p
/-- The field with its own export level and those of its inner fields replaced. -/
def Field.relevel (ρ : FieldOpts → Option Nat) : Field → Field
  | .mk t o => .mk (t.relevel ρ) { o with exportLevel := ρ o }
end

/-- The class with the levels of its fields replaced by `ρ` and its own by `κ`. -/
def ClassDef.relevel (ρ : FieldOpts → Option Nat) (κ : ClassDef → Nat) (c : ClassDef) : ClassDef :=
  { c with fields := c.fields.map fun fd => { fd with field := fd.field.relevel ρ }
           exportLevel := κ c }

/-- The class table with all levels replaced. -/
def Env.relevel (ρ : FieldOpts → Option Nat) (κ : ClassDef → Nat) (env : Env) : Env :=
  { env with cls := fun k => (env.cls k).map (ClassDef.relevel ρ κ) }

mutual
/-- Every field in the type has an export level of its own. -/
def FType.Leveled : FType → Prop
  | .leaf _ => True
  | .list inner _ _ => inner.Leveled
  | .dict inner _ => inner.Leveled
  | .model _ => True
  | .poly _ => True
/-- The field and all its inner fields have an export level of their own. -/
def Field.Leveled : Field → Prop
  | .mk t o => o.exportLevel ≠ none ∧ t.Leveled
end

/-! ## Lemmas -/

theorem relevel_view (ρ : FieldOpts → Option Nat) (κ : ClassDef → Nat) (c : ClassDef) (d : Data) :
    (c.relevel ρ κ).view d = c.view d := by
  unfold ClassDef.view ClassDef.relevel
  rw [List.filterMap_map]
  rfl

theorem relevel_env_view (ρ : FieldOpts → Option Nat) (κ : ClassDef → Nat) (env : Env) (k : String) (d : Data) :
    (env.relevel ρ κ).view k d = env.view k d := by
  unfold Env.view Env.relevel
  cases h : env.cls k with
  | none => simp [h]
  | some c => simp [h, relevel_view]

theorem relevel_extName (ρ : FieldOpts → Option Nat) (fd : FieldDef) :
    FieldDef.extName { fd with field := fd.field.relevel ρ } = fd.extName := by
  obtain ⟨n, ⟨t, o⟩, g, s⟩ := fd
  rfl

theorem relevel_isCompound (ρ : FieldOpts → Option Nat) (f : Field) : (f.relevel ρ).ty.isCompound = f.ty.isCompound := by
  obtain ⟨t, o⟩ := f
  cases t <;> rfl

theorem relevel_hidden (ρ : FieldOpts → Option Nat) (l : Nat) (f : Field) (w : Val) :
    hidden l (f.relevel ρ) w = hidden l f w := by
  unfold hidden emptyCompound; rw [relevel_isCompound]

theorem relevel_hiddenItem (ρ : FieldOpts → Option Nat) (l : Nat) (f : Field) (w : Val) :
    hiddenItem l (f.relevel ρ) w = hiddenItem l f w := by
  unfold hiddenItem emptyCompound; rw [relevel_isCompound]

theorem relevel_allowed (ρ : FieldOpts → Option Nat) (κ : ClassDef → Nat) (env : Env) (p : PolySpec) (v : Val) :
    p.allowed (env.relevel ρ κ) v = p.allowed env v := by
  cases v <;> rfl

theorem relevel_iterItems (ρ : FieldOpts → Option Nat) (κ : ClassDef → Nat) (env : Env) (v : Val) :
    iterItems (env.relevel ρ κ) v = iterItems env v := by
  cases v <;> simp [iterItems, relevel_env_view]

theorem relevel_iterPairs (ρ : FieldOpts → Option Nat) (κ : ClassDef → Nat) (env : Env) (v : Val) :
    iterPairs (env.relevel ρ κ) v = iterPairs env v := by
  cases v <;> simp [iterPairs, relevel_env_view]

/-- The condition under which the new levels do not matter for field `f` of a model with
level `a` instead of `b`. -/
def SameLevel (ctx : ECtx) (ρ : FieldOpts → Option Nat) (a b : Nat) (f : Field) : Prop :=
  exportLevelOf ctx a (f.relevel ρ) = exportLevelOf ctx b f

mutual
/-- `SameLevel` for all inner fields. -/
def FType.SameLevels (ctx : ECtx) (ρ : FieldOpts → Option Nat) (a b : Nat) : FType → Prop
  | .leaf _ => True
  | .list inner _ _ => inner.SameLevels ctx ρ a b
  | .dict inner _ => inner.SameLevels ctx ρ a b
  | .model _ => True
  | .poly _ => True
/-- `SameLevel` for a field and all its inner fields. -/
def Field.SameLevels (ctx : ECtx) (ρ : FieldOpts → Option Nat) (a b : Nat) : Field → Prop
  | .mk t o => SameLevel ctx ρ a b (.mk t o) ∧ t.SameLevels ctx ρ a b
end

theorem Field.SameLevels.here {ctx : ECtx} {ρ : FieldOpts → Option Nat} {a b : Nat} {f : Field}
    (h : f.SameLevels ctx ρ a b) : SameLevel ctx ρ a b f := by
  cases f; exact h.1

/-- Levels of a class do not matter. -/
def ClassDef.SameLevels (ctx : ECtx) (ρ : FieldOpts → Option Nat) (κ : ClassDef → Nat) (c : ClassDef) : Prop :=
  ∀ fd ∈ c.fields, fd.field.SameLevels ctx ρ (κ c) c.exportLevel

theorem exportFields_relevel {ctx : ECtx} {ρ : FieldOpts → Option Nat} {rec rec' : ERec} {a b : Nat}
    (flt : Option RoleFn) (src : Src) (fds : List FieldDef)
    (hc : ∀ fd ∈ fds, fd.field.SameLevels ctx ρ a b)
    (hrec : ∀ fd ∈ fds, ∀ v, rec' a (fd.field.relevel ρ) v = rec b fd.field v) (d : Data) :
    exportFields rec' ctx a flt src (fds.map fun fd => { fd with field := fd.field.relevel ρ }) d =
      exportFields rec ctx b flt src fds d := by
  induction fds generalizing d with
  | nil => rfl
  | cons fd fds ih =>
    simp only [List.map_cons, exportFields]
    have hf : exportField rec' ctx a flt src { fd with field := fd.field.relevel ρ } =
        exportField rec ctx b flt src fd := by
      unfold exportField
      have hread : Src.read { fd with field := fd.field.relevel ρ } src = Src.read fd src := by
        cases src <;> rfl
      simp only [hread]
      rw [hrec fd (by simp), show exportLevelOf ctx a (fd.field.relevel ρ) = exportLevelOf ctx b fd.field from
        (hc fd (by simp)).here]
      simp only [relevel_hidden]
    rw [hf]
    have ihd := fun d => ih (fun x hx => hc x (by simp [hx])) (fun x hx => hrec x (by simp [hx])) d
    cases exportField rec ctx b flt src fd with
    | error e => rfl
    | ok o =>
      cases o with
      | none => exact ihd d
      | some w => simp only [relevel_extName]; exact ihd _

theorem exportLoop_relevel {ctx : ECtx} {ρ : FieldOpts → Option Nat} {κ : ClassDef → Nat} {rec rec' : ERec}
    {c : ClassDef} (hc : c.SameLevels ctx ρ κ)
    (hrec : ∀ fd ∈ c.fields, ∀ v, rec' (κ c) (fd.field.relevel ρ) v = rec c.exportLevel fd.field v) (src : Src) :
    exportLoop rec' ctx (c.relevel ρ κ) src = exportLoop rec ctx c src := by
  unfold exportLoop
  have hr : roleFilter ctx (c.relevel ρ κ) = roleFilter ctx c := rfl
  rw [hr]
  cases roleFilter ctx c with
  | none => rfl
  | some flt => exact exportFields_relevel flt src c.fields hc hrec []

theorem fieldExport_relevel {env : Env} {ctx : ECtx} {ρ : FieldOpts → Option Nat} {κ : ClassDef → Nat}
    (henv : ∀ k c, env.cls k = some c → c.SameLevels ctx ρ κ) :
    ∀ n a b f v, f.SameLevels ctx ρ a b →
      fieldExport (env.relevel ρ κ) ctx n a (f.relevel ρ) v = fieldExport env ctx n b f v := by
  intro n
  induction n with
  | zero => intros; rfl
  | succ n ih =>
    intro a b f v hf
    obtain ⟨t, o⟩ := f
    simp only [fieldExport]
    have hmodel : ∀ k c src, env.cls k = some c →
        exportModel (fieldExport (env.relevel ρ κ) ctx n) ctx (c.relevel ρ κ) src =
          exportModel (fieldExport env ctx n) ctx c src := by
      intro k c src hc
      unfold exportModel
      rw [exportLoop_relevel (henv k c hc) (fun fd hfd v => ih _ _ _ _ (henv k c hc fd hfd))]
    have hcls : ∀ k, (env.relevel ρ κ).cls k = (env.cls k).map (ClassDef.relevel ρ κ) := fun _ => rfl
    cases t with
    | leaf l => rfl
    | list inner mn mx =>
      have hin : inner.SameLevels ctx ρ a b := hf.2
      simp only [exportF, Field.relevel, FType.relevel, Field.ty_mk, relevel_iterItems,
        show exportLevelOf ctx a (inner.relevel ρ) = exportLevelOf ctx b inner from hin.here]
      have h1 : fieldExport (env.relevel ρ κ) ctx n a (inner.relevel ρ) = fieldExport env ctx n b inner :=
        funext fun v => ih _ _ _ _ hin
      have h2 : hiddenItem (exportLevelOf ctx b inner) (inner.relevel ρ) = hiddenItem (exportLevelOf ctx b inner) inner :=
        funext fun v => relevel_hiddenItem _ _ _ _
      rw [h1, h2]
    | dict inner co =>
      have hin : inner.SameLevels ctx ρ a b := hf.2
      simp only [exportF, Field.relevel, FType.relevel, Field.ty_mk, relevel_iterPairs,
        show exportLevelOf ctx a (inner.relevel ρ) = exportLevelOf ctx b inner from hin.here]
      have h1 : fieldExport (env.relevel ρ κ) ctx n a (inner.relevel ρ) = fieldExport env ctx n b inner :=
        funext fun v => ih _ _ _ _ hin
      have h2 : hiddenItem (exportLevelOf ctx b inner) (inner.relevel ρ) = hiddenItem (exportLevelOf ctx b inner) inner :=
        funext fun v => relevel_hiddenItem _ _ _ _
      rw [h1, h2]
    | model cls =>
      simp only [exportF, Field.relevel, FType.relevel, Field.ty_mk, hcls]
      have hm : ∀ k src, (match Option.map (ClassDef.relevel ρ κ) (env.cls k) with
          | some c => exportModel (fieldExport (env.relevel ρ κ) ctx n) ctx c src
          | none => Except.error (Exc.other "ImportError")) =
          (match env.cls k with
          | some c => exportModel (fieldExport env ctx n) ctx c src
          | none => Except.error (Exc.other "ImportError")) := by
        intro k src
        cases h : env.cls k with
        | none => rfl
        | some c => exact hmodel k c src h
      cases v <;> exact hm _ _
    | poly p =>
      simp only [exportF, Field.relevel, FType.relevel, Field.ty_mk, hcls, relevel_allowed]
      split
      · cases v with
        | inst k d =>
          simp only []
          cases h : env.cls k with
          | none => rfl
          | some c => exact hmodel k c _ h
        | _ => rfl
      · rfl

theorem runExport_relevel {env : Env} {ctx : ECtx} {ρ : FieldOpts → Option Nat} {κ : ClassDef → Nat}
    (henv : ∀ k c, env.cls k = some c → c.SameLevels ctx ρ κ) {c : ClassDef} (hc : c.SameLevels ctx ρ κ)
    (n : Nat) (src : Src) :
    runExport (env.relevel ρ κ) n ctx (c.relevel ρ κ) src = runExport env n ctx c src :=
  exportLoop_relevel hc (fun fd hfd v => fieldExport_relevel henv _ _ _ _ _ (hc fd hfd)) src

theorem sameLevels_all {ctx : ECtx} {ρ : FieldOpts → Option Nat} {a b : Nat}
    (h : ∀ f, SameLevel ctx ρ a b f) (f : Field) : f.SameLevels ctx ρ a b := by
  apply Field.rec (motive_1 := fun t => t.SameLevels ctx ρ a b) (motive_2 := fun f => f.SameLevels ctx ρ a b)
  · intro l; trivial
  · intro f _ _ ih; exact ih
  · intro f _ ih; exact ih
  · intro _; trivial
  · intro _; trivial
  · intro t o ih; exact ⟨h _, ih⟩

theorem sameLevels_leveled {ctx : ECtx} {a b : Nat} (f : Field) (hf : f.Leveled) :
    f.SameLevels ctx (·.exportLevel) a b := by
  revert hf
  apply Field.rec (motive_1 := fun t => t.Leveled → t.SameLevels ctx (·.exportLevel) a b)
    (motive_2 := fun f => f.Leveled → f.SameLevels ctx (·.exportLevel) a b)
  · intro l _; trivial
  · intro f _ _ ih h; exact ih h
  · intro f _ ih h; exact ih h
  · intro _ _; trivial
  · intro _ _; trivial
  · intro t o ih h
    refine ⟨?_, ih h.2⟩
    unfold SameLevel exportLevelOf
    cases hl : o.exportLevel with
    | none => exact absurd hl h.1
    | some x => simp [Field.relevel, hl]

/-! ## Theorems -/

/-- **C29** (call level). If the export call gives a level, the levels of fields and models, at
any depth, do not matter: replacing all of them does not change the outcome. -/
theorem C29_call_level_wins (env : Env) (n : Nat) (ctx : ECtx) (c : ClassDef) (src : Src) (l : Nat)
    (hl : ctx.level = some l) (ρ : FieldOpts → Option Nat) (κ : ClassDef → Nat) :
    runExport (env.relevel ρ κ) n ctx (c.relevel ρ κ) src = runExport env n ctx c src := by
  have : ∀ a b f, SameLevel ctx ρ a b f := by
    intro a b f; unfold SameLevel exportLevelOf; rw [hl]
  exact runExport_relevel (fun k c _ fd _ => sameLevels_all (this _ _) _)
    (fun fd _ => sameLevels_all (this _ _) _) n src

/-- **C29** (field level). Without a call level, if all fields have levels of their own then the
levels of the models do not matter. -/
theorem C29_field_level_wins (env : Env) (n : Nat) (ctx : ECtx) (c : ClassDef) (src : Src)
    (henv : ∀ k c, env.cls k = some c → ∀ fd ∈ c.fields, fd.field.Leveled)
    (hc : ∀ fd ∈ c.fields, fd.field.Leveled) (κ : ClassDef → Nat) :
    runExport (env.relevel (·.exportLevel) κ) n ctx (c.relevel (·.exportLevel) κ) src = runExport env n ctx c src :=
  runExport_relevel (fun k c h fd hfd => sameLevels_leveled _ (henv k c h fd hfd))
    (fun fd hfd => sameLevels_leveled _ (hc fd hfd)) n src

/-- **C29** (model level). Without a call level, the level of a model is that of its fields which
have none of their own: writing it into those fields (at every depth, for every model
with the same level) does not change the outcome. -/
theorem C29_model_level_is_the_fields_default (env : Env) (n : Nat) (ctx : ECtx) (c : ClassDef) (src : Src) (l : Nat)
    (henv : ∀ k c, env.cls k = some c → c.exportLevel = l) (hc : c.exportLevel = l) (κ : ClassDef → Nat) :
    runExport (env.relevel (fun o => some (o.exportLevel.getD l)) κ) n ctx
        (c.relevel (fun o => some (o.exportLevel.getD l)) κ) src = runExport env n ctx c src := by
  have : ∀ a f, SameLevel ctx (fun o => some (o.exportLevel.getD l)) a l f := by
    intro a f
    obtain ⟨t, o⟩ := f
    unfold SameLevel exportLevelOf
    cases ctx.level <;> simp [Field.relevel]
  exact runExport_relevel (fun k c h fd _ => sameLevels_all (by rw [henv k c h]; exact this _) _)
    (fun fd _ => sameLevels_all (by rw [hc]; exact this _) _) n src

/-! ## The hypotheses are met -/

example := C29_call_level_wins Samples.env 5 { level := some NOT_NONE } Samples.order (.inst Samples.goodData) NOT_NONE rfl
  (fun _ => some DROP) (fun _ => DROP)
example := C29_model_level_is_the_fields_default Samples.env 5 {} Samples.order (.inst Samples.goodData) DEFAULT
  (Samples.env_classes rfl rfl) rfl (fun _ => DROP)
/-- A class all of whose fields have a level of their own. -/
def Samples.leveled : ClassDef where
  name := "L"
  fields := [{ name := "a", field := .mk (.leaf Samples.intLeaf) { exportLevel := some NOT_NONE } },
    { name := "b", field := .mk (.list (.mk (.leaf Samples.intLeaf) { exportLevel := some ALL }) none none) { exportLevel := some DROP } }]
example := C29_field_level_wins { Samples.env with cls := fun _ => none } 5 {} Samples.leveled
  (.inst [(.str "a", .int 1), (.str "b", .list [.int 2])]) (by simp)
  (by intro fd h
      simp only [Samples.leveled, List.mem_cons, List.not_mem_nil, or_false] at h
      rcases h with rfl | rfl
      · exact ⟨by simp, trivial⟩
      · exact ⟨by simp, by simp, trivial⟩)
  (fun _ => DROP)

end Verif
