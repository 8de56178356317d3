import Verif.Core.ImportLemmas

/-!
# Simulations between two runs of the import engine

Helper lemmas (no model code): the engine is a congruence.  If the recursive calls of two
runs agree - for related field definitions and contexts - so do the runs.  With `b = true` the
first run may also be out of fuel.  Used for C06 (partial imports) and C22 (fuel monotonicity).
-/
namespace Verif

/-- The second result equals the first, or (`b = true`) the first ran out of fuel. -/
def Le {α : Type} (b : Bool) (r r' : R α) : Prop := (b = true ∧ r = .error .fuel) ∨ r' = r

theorem Le.refl {α : Type} {b : Bool} (r : R α) : Le b r r := Or.inr rfl
theorem Le.of_eq {α : Type} {b : Bool} {r r' : R α} (h : r' = r) : Le b r r' := Or.inr h

/-- A transformation of fields (`tf`) and contexts (`tc`) the engine cannot see, except through
the recursive calls. -/
structure Sim where
  tf : Field → Field
  tc : Ctx → Ctx
  ser : ∀ f, (tf f).o.serializedName = f.o.serializedName
  dflt : ∀ f, (tf f).o.default = f.o.default
  dfrom : ∀ f, (tf f).o.deserializeFrom = f.o.deserializeFrom
  comp : ∀ f, (tf f).ty.isCompound = f.ty.isCompound
  sub : ∀ ctx t m, tc { ctx with trusted := t, mapping := m } = { tc ctx with trusted := t, mapping := m }
  trusted : ∀ ctx, (tc ctx).trusted = ctx.trusted
  mapping : ∀ ctx, (tc ctx).mapping = ctx.mapping
  strict : ∀ ctx, (tc ctx).strict = ctx.strict
  init : ∀ ctx, (tc ctx).init = ctx.init
  defaults : ∀ ctx, (tc ctx).defaults = ctx.defaults
  convert : ∀ ctx, (tc ctx).convert = ctx.convert
  validate : ∀ ctx, (tc ctx).validate = ctx.validate
  oo : ∀ ctx, (tc ctx).oo = ctx.oo
  recursive : ∀ ctx, (tc ctx).recursive = ctx.recursive
  app : ∀ ctx, (tc ctx).app = ctx.app
  conv : ∀ ctx, (tc ctx).conv = ctx.conv

namespace Sim
variable (s : Sim)

/-- The field definition with its type object transformed. -/
def fd (fd : FieldDef) : FieldDef := { fd with field := s.tf fd.field }
/-- The class with its fields transformed. -/
def cls (c : ClassDef) : ClassDef := { c with fields := c.fields.map s.fd }
/-- The class table with all classes transformed. -/
def env (e : Env) : Env := { e with cls := fun k => (e.cls k).map s.cls }

theorem view (c : ClassDef) (d : Data) : (s.cls c).view d = c.view d := by
  unfold ClassDef.view cls
  simp only [List.filterMap_map]
  rfl

theorem env_view (e : Env) (k : String) (d : Data) : (s.env e).view k d = e.view k d := by
  unfold Env.view env
  cases h : e.cls k with
  | none => simp [h]
  | some c => simp [h, s.view]

theorem extName (f : FieldDef) : (s.fd f).extName = f.extName := by
  unfold FieldDef.extName fd; simp only [s.ser]

theorem inputKeys (m : Mapping) (f : FieldDef) : Verif.inputKeys m (s.fd f) = Verif.inputKeys m f := by
  unfold Verif.inputKeys fd; simp only [s.ser, s.dfrom]

theorem subCtx (e : Env) (ctx : Ctx) (name : String) :
    Verif.subCtx (s.env e) (s.tc ctx) name = s.tc (Verif.subCtx e ctx name) := by
  have h := s.sub ctx (Verif.subCtx e ctx name).trusted (Verif.subCtx e ctx name).mapping
  refine Eq.trans ?_ h.symm
  have h1 : (Verif.subCtx (s.env e) (s.tc ctx) name).trusted = (Verif.subCtx e ctx name).trusted := by
    simp only [Verif.subCtx, s.trusted, s.recursive, s.env_view]
  have h2 : (Verif.subCtx (s.env e) (s.tc ctx) name).mapping = (Verif.subCtx e ctx name).mapping := by
    simp only [Verif.subCtx, s.mapping]
  rw [← h1, ← h2]
  rfl

theorem rogueKeys (ctx : Ctx) (c : ClassDef) (raw : Data) :
    Verif.rogueKeys (s.tc ctx) (s.cls c) raw = Verif.rogueKeys ctx c raw := by
  unfold Verif.rogueKeys acceptedKeys cls
  simp only [s.strict, s.mapping, List.flatMap_map, s.inputKeys]

theorem filter_map (p : FieldDef → Bool) (hp : ∀ f, p (s.fd f) = p f) (fds : List FieldDef) :
    (fds.map s.fd).filter p = (fds.filter p).map s.fd := by
  induction fds with
  | nil => rfl
  | cons f fds ih => simp only [List.map_cons, List.filter_cons, hp, ih]; split <;> rfl

theorem settable (c : ClassDef) : (s.cls c).settable = c.settable.map s.fd :=
  s.filter_map _ (fun _ => rfl) c.fields

theorem loopFields (ctx : Ctx) (c : ClassDef) :
    (s.cls c).loopFields (s.tc ctx) = (c.loopFields ctx).map s.fd := by
  unfold ClassDef.loopFields ClassDef.plain
  rw [s.validate]
  split
  · rfl
  · exact s.filter_map _ (fun _ => rfl) c.fields

theorem copySettable (ctx : Ctx) (c : ClassDef) (raw d : Data) :
    Verif.copySettable (s.cls c) (s.tc ctx) raw d = Verif.copySettable c ctx raw d := by
  unfold Verif.copySettable
  rw [s.validate, s.settable, List.foldl_map]
  rfl

variable {b : Bool} {rec rec' : Rec} {e : Env}

/-- Hypothesis on the recursive calls of the loop over `fds`. -/
def Agree (b : Bool) (rec rec' : Rec) (fds : List FieldDef) : Prop :=
  ∀ ctx, ∀ f ∈ fds, ∀ v, Le b (rec ctx true f.field v) (rec' (s.tc ctx) true (s.tf f.field) v)

theorem fieldOutcome {f : FieldDef} (h : ∀ ctx v, Le b (rec ctx true f.field v) (rec' (s.tc ctx) true (s.tf f.field) v))
    (ctx : Ctx) (raw : Data) (inD : Bool) :
    Le b (Verif.fieldOutcome rec e ctx raw inD f)
      (Verif.fieldOutcome rec' (s.env e) (s.tc ctx) raw inD (s.fd f)) := by
  unfold Verif.fieldOutcome
  have hin : inputValue raw (s.tc ctx).mapping (s.fd f) = inputValue raw ctx.mapping f := by
    unfold inputValue; rw [s.inputKeys, s.mapping]; rfl
  simp only [hin]
  split
  · exact Le.refl _
  · have hfill : fillValue (s.tc ctx) (s.fd f) (inputValue raw ctx.mapping f) =
        fillValue ctx f (inputValue raw ctx.mapping f) := by
      unfold fillValue fd; simp only [s.defaults, s.init, s.dflt]
    have hctx : (if (s.fd f).field.ty.isCompound then Verif.subCtx (s.env e) (s.tc ctx) (s.fd f).name else s.tc ctx)
        = s.tc (if f.field.ty.isCompound then Verif.subCtx e ctx f.name else ctx) := by
      have : (s.fd f).field.ty.isCompound = f.field.ty.isCompound := s.comp _
      rw [this, s.subCtx]
      split <;> rfl
    have hrepl : ∀ x, failRepl (s.tc ctx) (s.fd f) x = failRepl ctx f x := by
      intro x; unfold failRepl fd; simp only [s.defaults, s.dflt]
    rw [hfill, hctx]
    simp only [hrepl]
    rcases h (if f.field.ty.isCompound then Verif.subCtx e ctx f.name else ctx)
        (fillValue ctx f (inputValue raw ctx.mapping f)) with ⟨hb, h⟩ | h
    · rw [h]; exact Or.inl ⟨hb, rfl⟩
    · rw [show (s.fd f).field = s.tf f.field from rfl, h]; exact Le.refl _

theorem importFields {fds : List FieldDef} (h : s.Agree b rec rec' fds) (ctx : Ctx) (raw : Data) (a : Acc) :
    Le b (Verif.importFields rec e ctx raw fds a)
      (Verif.importFields rec' (s.env e) (s.tc ctx) raw (fds.map s.fd) a) := by
  induction fds generalizing a with
  | nil => exact Le.refl _
  | cons f fds ih =>
    simp only [List.map_cons, Verif.importFields]
    have hn : (s.fd f).name = f.name := rfl
    rw [hn]
    rcases s.fieldOutcome (e := e) (fun ctx v => h ctx f (by simp) v) ctx raw (a.data.has (.str f.name)) with ⟨hb, h'⟩ | h'
    · rw [h']; exact Or.inl ⟨hb, rfl⟩
    · rw [h']
      cases Verif.fieldOutcome rec e ctx raw (a.data.has (.str f.name)) f with
      | error x => exact Le.refl _
      | ok o =>
        have : a.apply (s.fd f) o = a.apply f o := by
          cases o <;> simp [Acc.apply, s.extName, hn]
        simp only [this]
        exact ih (fun ctx x hx => h ctx x (by simp [hx])) _

theorem mem_loop {c : ClassDef} {ctx : Ctx} {f : FieldDef} (h : f ∈ c.loopFields ctx) : f ∈ c.fields := by
  unfold ClassDef.loopFields ClassDef.plain at h
  split at h
  · exact h
  · exact (List.mem_filter.1 h).1

theorem mem_settable {c : ClassDef} {f : FieldDef} (h : f ∈ c.settable) : f ∈ c.fields :=
  (List.mem_filter.1 h).1

theorem importBody {c : ClassDef} (h : s.Agree b rec rec' c.fields) (ctx : Ctx) (raw : Data) (es : Errs) :
    Le b (Verif.importBody rec e ctx c raw es)
      (Verif.importBody rec' (s.env e) (s.tc ctx) (s.cls c) raw es) := by
  unfold Verif.importBody
  simp only [s.rogueKeys, s.loopFields, s.trusted, s.copySettable]
  rcases s.importFields (e := e) (fds := c.loopFields ctx) (fun ctx f hf => h ctx f (mem_loop hf)) ctx raw
    ⟨ctx.trusted, (Verif.rogueKeys ctx c raw).foldl (fun es k => Dict.set es k .rogue) es⟩ with ⟨hb, h'⟩ | h'
  · rw [h']; exact Or.inl ⟨hb, rfl⟩
  · rw [h']; exact Le.refl _

theorem runSetters {fds : List FieldDef} (h : s.Agree b rec rec' fds) (ctx : Ctx) (raw : Data) (oi : Bool)
    (es : Errs) (d : Data) :
    Le b (Verif.runSetters rec ctx raw oi fds es d)
      (Verif.runSetters rec' (s.tc ctx) raw oi (fds.map s.fd) es d) := by
  induction fds generalizing es d with
  | nil => exact Le.refl _
  | cons f fds ih =>
    have ih := fun es d => ih (fun ctx x hx => h ctx x (by simp [hx])) es d
    simp only [List.map_cons, Verif.runSetters]
    have hn : (s.fd f).name = f.name := rfl
    have hs : (s.fd f).fset = f.fset := rfl
    have hf : (s.fd f).field = s.tf f.field := rfl
    rw [hn, hs, s.extName, hf]
    split
    · exact ih es d
    · rcases h ctx f (by simp) (rawValue raw f.name) with ⟨hb, h'⟩ | h'
      · rw [h']; exact Or.inl ⟨hb, rfl⟩
      · rw [h']
        cases rec ctx true f.field (rawValue raw f.name) with
        | error x =>
          simp only []
          split
          · exact ih _ _
          · split
            · exact ih _ _
            · exact Le.refl _
        | ok w =>
          simp only []
          split
          · exact ih _ _
          · split
            · exact ih _ _
            · split
              · exact ih _ _
              · exact Le.refl _

theorem runMutate {c : ClassDef} (h : s.Agree b rec rec' c.fields) (ctx : Ctx) (mu : Mut) (raw : Data) :
    Le b (Verif.runMutate rec ctx c mu raw) (Verif.runMutate rec' (s.tc ctx) (s.cls c) mu raw) := by
  have hs := fun oi es d => s.runSetters (fds := c.settable) (fun ctx f hf => h ctx f (mem_settable hf)) ctx raw oi es d
  cases mu with
  | inst d =>
    simp only [Verif.runMutate, s.settable, s.view]
    rcases hs true [] d with ⟨hb, h'⟩ | h'
    · rw [h']; exact Or.inl ⟨hb, rfl⟩
    · rw [h']; exact Le.refl _
  | same ri =>
    simp only [Verif.runMutate, s.settable]
    rcases hs false [] [] with ⟨hb, h'⟩ | h'
    · rw [h']; exact Or.inl ⟨hb, rfl⟩
    · rw [h']; exact Le.refl _

theorem importLoop {c : ClassDef} (h : s.Agree b rec rec' c.fields) (ctx : Ctx) (mu : Mut) (raw : Data) :
    Le b (Verif.importLoop rec e ctx c mu raw)
      (Verif.importLoop rec' (s.env e) (s.tc ctx) (s.cls c) mu raw) := by
  unfold Verif.importLoop
  rw [s.validate]
  split
  · rcases s.runMutate h ctx mu raw with ⟨hb, h'⟩ | h'
    · rw [h']; exact Or.inl ⟨hb, rfl⟩
    · rw [h']
      cases Verif.runMutate rec ctx c mu raw with
      | error x => exact Le.refl _
      | ok m => exact s.importBody h ctx _ _
  · exact s.importBody h ctx _ _

theorem modelValidators (c : ClassDef) (mv : Data) (app : Val) (fds : List FieldDef) (d : Data) :
    Verif.modelValidators (s.cls c) mv app (fds.map s.fd) d = Verif.modelValidators c mv app fds d := by
  induction fds generalizing d with
  | nil => rfl
  | cons f fds ih =>
    simp only [List.map_cons, Verif.modelValidators, s.extName, ih]
    rfl

theorem validateModel (c : ClassDef) (mv : Data) (app : Val) (d : Data) :
    Verif.validateModel (s.cls c) mv app d = Verif.validateModel c mv app d := by
  unfold Verif.validateModel
  rw [show (s.cls c).fields = c.fields.map s.fd from rfl, s.modelValidators]

theorem validateFn {c : ClassDef} (h : s.Agree b rec rec' c.fields) (ctx : Ctx) (mu : Mut) (raw : Data) :
    Le b (Verif.validateFn rec e ctx c mu raw)
      (Verif.validateFn rec' (s.env e) (s.tc ctx) (s.cls c) mu raw) := by
  unfold Verif.validateFn
  rcases s.runMutate h ctx mu raw with ⟨hb, h'⟩ | h'
  · rw [h']; exact Or.inl ⟨hb, rfl⟩
  · rw [h']
    cases Verif.runMutate rec ctx c mu raw with
    | error x => exact Le.refl _
    | ok m =>
      simp only [s.app, s.validateModel]
      rcases s.importBody (e := e) h ctx m.raw m.errs with ⟨hb, h'⟩ | h'
      · rw [h']; exact Or.inl ⟨hb, rfl⟩
      · rw [h']; exact Le.refl _

theorem newInstance {c : ClassDef} (h : s.Agree b rec rec' c.fields) (ctx : Ctx) (raw : Data) :
    Le b (Verif.newInstance rec e ctx c raw)
      (Verif.newInstance rec' (s.env e) (s.tc ctx) (s.cls c) raw) := by
  unfold Verif.newInstance
  rw [s.validate]
  have : Le b (if ctx.validate then Verif.validateFn rec e ctx c (.inst []) raw
         else Verif.importLoop rec e ctx c (.inst []) raw)
      (if ctx.validate then Verif.validateFn rec' (s.env e) (s.tc ctx) (s.cls c) (.inst []) raw
         else Verif.importLoop rec' (s.env e) (s.tc ctx) (s.cls c) (.inst []) raw) := by
    split
    · exact s.validateFn h ctx _ _
    · exact s.importLoop h ctx _ _
  rcases this with ⟨hb, h'⟩ | h'
  · rw [h']; exact Or.inl ⟨hb, rfl⟩
  · rw [h']; exact Le.refl _

theorem modelInto {c : ClassDef} (h : s.Agree b rec rec' c.fields) (ctx : Ctx) (raw : Data) (bi : Bool) :
    Le b (Verif.modelInto rec e ctx c raw bi)
      (Verif.modelInto rec' (s.env e) (s.tc ctx) (s.cls c) raw bi) := by
  unfold Verif.modelInto
  rw [s.convert, s.oo]
  split
  · exact s.newInstance h ctx raw
  · rcases s.importLoop (e := e) h ctx (.same bi) raw with ⟨hb, h'⟩ | h'
    · rw [h']; exact Or.inl ⟨hb, rfl⟩
    · rw [h']; exact Le.refl _

theorem modelConv (h : ∀ k c, e.cls k = some c → s.Agree b rec rec' c.fields) (ctx : Ctx) (cls : String) (v : Val) :
    Le b (Verif.modelConv rec e ctx cls v) (Verif.modelConv rec' (s.env e) (s.tc ctx) cls v) := by
  have hcls : ∀ k, (s.env e).cls k = (e.cls k).map s.cls := fun _ => rfl
  cases v with
  | inst c' d =>
    simp only [Verif.modelConv, hcls]
    have : (s.env e).isSub = e.isSub := rfl
    rw [this]
    split
    · cases hc : e.cls c' with
      | none => exact Le.refl _
      | some c => simp only [Option.map_some, s.view]; exact s.modelInto (h _ c hc) ctx _ _
    · exact Le.refl _
  | dict d =>
    simp only [Verif.modelConv, hcls]
    cases hc : e.cls cls with
    | none => exact Le.refl _
    | some c => exact s.modelInto (h _ c hc) ctx _ _
  | _ => exact Le.refl _

theorem findModel (p : PolySpec) (v : Val) : p.findModel (s.env e) v = p.findModel e v := by
  unfold PolySpec.findModel
  have hcl : ∀ k, (s.env e).claim k = e.claim k := by
    intro k; unfold Env.claim env
    cases h : e.cls k <;> simp [h] <;> rfl
  have hca : p.candidates (s.env e) = p.candidates e := rfl
  rw [hca]
  simp only [hcl]

theorem polyConv (h : ∀ k c, e.cls k = some c → s.Agree b rec rec' c.fields) (ctx : Ctx) (p : PolySpec) (v : Val) :
    Le b (Verif.polyConv rec e ctx p v) (Verif.polyConv rec' (s.env e) (s.tc ctx) p v) := by
  have hcls : ∀ k, (s.env e).cls k = (e.cls k).map s.cls := fun _ => rfl
  have hall : p.allowed (s.env e) v = p.allowed e v := by cases v <;> rfl
  unfold Verif.polyConv
  rw [s.validate, hall, s.findModel]
  split
  · exact Le.refl _
  · split
    · exact Le.refl _
    · cases p.findModel e v with
      | error x => exact Le.refl _
      | ok k =>
        simp only [hcls]
        cases hc : e.cls k with
        | none => exact Le.refl _
        | some c =>
          simp only [Option.map_some]
          split
          · exact s.newInstance (h _ c hc) ctx _
          · rw [s.env_view]; exact s.newInstance (h _ c hc) ctx _
          · split
            · exact Le.refl _
            · exact s.newInstance (h _ c hc) ctx _

theorem listLoop {f g : Val → R Val} (h : ∀ v, Le b (f v) (g v)) (i : Nat) (xs : List Val) :
    Le b (Verif.listLoop f i xs) (Verif.listLoop g i xs) := by
  induction xs generalizing i with
  | nil => exact Le.refl _
  | cons x xs ih =>
    simp only [Verif.listLoop]
    rcases h x with ⟨hb, h'⟩ | h'
    · rw [h']; exact Or.inl ⟨hb, rfl⟩
    · rw [h']
      cases f x with
      | ok y =>
        rcases ih (i + 1) with ⟨hb, h'⟩ | h'
        · rw [h']; exact Or.inl ⟨hb, rfl⟩
        · rw [h']; exact Le.refl _
      | error x =>
        simp only []
        split
        · rcases ih (i + 1) with ⟨hb, h'⟩ | h'
          · rw [h']; exact Or.inl ⟨hb, rfl⟩
          · rw [h']; exact Le.refl _
        · exact Le.refl _

theorem listConv {f g : Val → R Val} (h : ∀ v, Le b (f v) (g v)) (xs : List Val) :
    Le b (Verif.listConv f xs) (Verif.listConv g xs) := by
  unfold Verif.listConv
  rcases listLoop h 0 xs with ⟨hb, h'⟩ | h'
  · rw [h']; exact Or.inl ⟨hb, rfl⟩
  · rw [h']; exact Le.refl _

theorem dictLoop {f g : Val → R Val} (h : ∀ v, Le b (f v) (g v)) (co : Key → R Key) (xs : List (Key × Val))
    (d : Data) (es : Errs) : Le b (Verif.dictLoop f co xs d es) (Verif.dictLoop g co xs d es) := by
  induction xs generalizing d es with
  | nil => exact Le.refl _
  | cons x xs ih =>
    obtain ⟨k, x⟩ := x
    simp only [Verif.dictLoop]
    rcases h x with ⟨hb, h'⟩ | h'
    · rw [h']; exact Or.inl ⟨hb, rfl⟩
    · rw [h']
      cases f x with
      | ok y =>
        simp only []
        cases co k with
        | ok k' => exact ih _ _
        | error x => simp only []; split
                     · exact ih _ _
                     · exact Le.refl _
      | error x =>
        simp only []
        split
        · exact ih _ _
        · exact Le.refl _

theorem dictConv {f g : Val → R Val} (h : ∀ v, Le b (f v) (g v)) (co : Key → R Key) (xs : List (Key × Val)) :
    Le b (Verif.dictConv f co xs) (Verif.dictConv g co xs) := by
  unfold Verif.dictConv
  rcases dictLoop h co xs [] [] with ⟨hb, h'⟩ | h'
  · rw [h']; exact Or.inl ⟨hb, rfl⟩
  · rw [h']; exact Le.refl _

/-- Conversion: `f'` has the same type as `f`. -/
theorem convertF {f f' : Field} (hty : f'.ty = f.ty)
    (h : ∀ k c, e.cls k = some c → s.Agree b rec rec' c.fields)
    (hin : ∀ ctx inner v, Le b (rec ctx false inner v) (rec' (s.tc ctx) false inner v)) (ctx : Ctx) (v : Val) :
    Le b (Verif.convertF rec e ctx f v) (Verif.convertF rec' (s.env e) (s.tc ctx) f' v) := by
  unfold Verif.convertF
  rw [hty, s.app]
  split
  · exact Le.refl _
  · have : coerceList (s.env e) v = coerceList e v := by
      cases v <;> simp [coerceList, s.env_view]
    rw [this]
    split
    · exact Le.refl _
    · exact listConv (hin ctx _) _
  · split
    · exact dictConv (hin ctx _) _ _
    · exact Le.refl _
  · exact s.modelConv h ctx _ _
  · exact s.polyConv h ctx _ _

theorem validateF {f f' : Field} (hty : f'.ty = f.ty) (hch : f'.o.choices = f.o.choices)
    (hva : f'.o.validators = f.o.validators)
    (h : ∀ k c, e.cls k = some c → s.Agree b rec rec' c.fields)
    (hin : ∀ ctx inner v, Le b (rec ctx false inner v) (rec' (s.tc ctx) false inner v)) (ctx : Ctx) (v : Val) :
    Le b (Verif.validateF rec e ctx f v) (Verif.validateF rec' (s.env e) (s.tc ctx) f' v) := by
  unfold Verif.validateF
  have hall : f'.allValidators = f.allValidators := by
    unfold Field.allValidators; rw [hch, hty, hva]
  rw [hty, s.convert, s.app, hall]
  split
  · exact Le.refl _
  · split
    · rcases s.convertF hty h hin ctx v with ⟨hb, h'⟩ | h'
      · rw [h']; exact Or.inl ⟨hb, rfl⟩
      · rw [h']; exact Le.refl _
    · split
      · rcases s.convertF hty h hin ctx v with ⟨hb, h'⟩ | h'
        · rw [h']; exact Or.inl ⟨hb, rfl⟩
        · rw [h']; exact Le.refl _
      · exact Le.refl _

theorem fieldConvF {f f' : Field} (hty : f'.ty = f.ty) (hch : f'.o.choices = f.o.choices)
    (hva : f'.o.validators = f.o.validators)
    (h : ∀ k c, e.cls k = some c → s.Agree b rec rec' c.fields)
    (hin : ∀ ctx inner v, Le b (rec ctx false inner v) (rec' (s.tc ctx) false inner v)) (ctx : Ctx) (named : Bool)
    (v : Val) (hreq : requiredFails (s.tc ctx) named f' v = requiredFails ctx named f v) :
    Le b (Verif.fieldConvF rec e ctx named f v) (Verif.fieldConvF rec' (s.env e) (s.tc ctx) named f' v) := by
  unfold Verif.fieldConvF
  rw [hreq, s.conv]
  split
  · exact Le.refl _
  · split
    · exact Le.refl _
    · split
      · exact s.convertF hty h hin ctx v
      · exact s.validateF hty hch hva h hin ctx v

/-- The identity simulation. -/
def ident : Sim :=
  ⟨id, id, fun _ => rfl, fun _ => rfl, fun _ => rfl, fun _ => rfl, fun _ _ _ => rfl, fun _ => rfl, fun _ => rfl,
    fun _ => rfl, fun _ => rfl, fun _ => rfl, fun _ => rfl, fun _ => rfl, fun _ => rfl, fun _ => rfl, fun _ => rfl, fun _ => rfl⟩

theorem ident_cls (c : ClassDef) : ident.cls c = c := by
  unfold cls
  have : ident.fd = id := rfl
  rw [this, List.map_id]

theorem ident_env (e : Env) : ident.env e = e := by
  unfold env
  have : ident.cls = id := funext ident_cls
  rw [this]
  simp

end Sim
end Verif
