import Verif.Core.Factory
import Verif.Props.Converter
import Verif.Samples

/-!
# C97: callable defaults
-/
namespace Verif

/-! ## Factories that always return the same value -/

theorem Res.handle {m : St σ α} {r : R α} {k : α → St σ β} {h : Exc → St σ β} {r' : R β} (hm : Res m r)
    (hk : ∀ a, r = .ok a → Res (k a) r') (hh : ∀ e, r = .error e → Res (h e) r') : Res (St.handle m k h) r' := by
  intro s
  have h1 := hm s
  unfold St.handle
  rcases hx : m s with ⟨x, s'⟩
  rw [hx] at h1
  cases h1
  cases x with
  | error e => exact hh e rfl s'
  | ok a => exact hk a rfl s'

/-- Sequence, with the result given. -/
theorem Res.bind' {m : St σ α} {r : R α} {k : α → St σ β} {r' : R β} (hm : Res m r) (hk : ∀ a, r = .ok a → Res (k a) r') (he : ∀ e, r = .error e → r' = .error e) :
    Res (St.bind m k) r' := by
  intro s
  have h1 := hm s
  unfold St.bind
  rcases hx : m s with ⟨x, s'⟩
  rw [hx] at h1
  cases h1
  cases x with
  | error e => exact (he e rfl).symm
  | ok a => exact hk a rfl s'

/-- A factory that always returns the declared default, whatever else it does. -/
def Steady (fac : Factory σ) : Prop := ∀ c fd, Res (fac c fd) (.ok fd.field.o.default)

section steady
variable {fac : Factory σ} {rec : Rec} {recS : SRec σ} {env : Env}

theorem fillValueS_res (hf : Steady fac) (ctx : Ctx) (c : ClassDef) (fd : FieldDef) (v : Val) : Res (fillValueS fac ctx c fd v) (.ok (fillValue ctx fd v)) := by
  unfold fillValueS fillValue
  refine Res.bind' (r := .ok (if v.isUndef && ctx.defaults then fd.field.o.default else v)) ?_ ?_ nofun
  · split
    · exact hf c fd
    · exact Res.pure _
  · intro a ha
    cases ha
    exact Res.pure _

theorem failReplS_res (hf : Steady fac) (ctx : Ctx) (c : ClassDef) (fd : FieldDef) (e : Exc) : Res (failReplS fac ctx c fd e) (.ok (failRepl ctx fd e)) := by
  unfold failReplS failRepl
  refine Res.bind' (r := .ok (if ctx.defaults then fd.field.o.default else .undef)) ?_ ?_ nofun
  · split
    · exact hf c fd
    · exact Res.pure _
  · intro a ha
    cases ha
    refine (Res.pure _).of_eq (congrArg Except.ok ?_)
    cases e <;> first
      | rfl
      | (cases hd : ctx.defaults
         · rfl
         · cases hu : fd.field.o.default.isUndef <;> simp [hu])

theorem fieldOutcomeS_res (hf : Steady fac) (hr : ∀ ctx b f v, Res (recS ctx b f v) (rec ctx b f v)) (ctx : Ctx) (c : ClassDef) (raw : Data) (inData : Bool) (fd : FieldDef) :
    Res (fieldOutcomeS fac recS env ctx c raw inData fd) (fieldOutcome rec env ctx raw inData fd) := by
  unfold fieldOutcomeS fieldOutcome
  dsimp only
  split
  · exact Res.pure _
  · refine Res.bind' (fillValueS_res hf ctx c fd _) ?_ nofun
    intro v hv
    cases hv
    refine Res.handle (hr _ _ _ _) ?_ ?_
    · intro w hw
      rw [hw]
      refine (Res.pure _).of_eq ?_
      unfold keepValue
      dsimp only
      split <;> rfl
    · intro e he
      rw [he]
      dsimp only
      split
      · refine Res.bind' (failReplS_res hf ctx c fd e) ?_ nofun
        intro r hr
        cases hr
        exact Res.pure _
      · exact Res.pure _

theorem importFieldsS_res (hf : Steady fac) (hr : ∀ ctx b f v, Res (recS ctx b f v) (rec ctx b f v)) (ctx : Ctx) (c : ClassDef) (raw : Data) (fds : List FieldDef) :
    ∀ a, Res (importFieldsS fac recS env ctx c raw fds a) (importFields rec env ctx raw fds a) := by
  induction fds with
  | nil => intro a; exact Res.pure _
  | cons fd fds ih =>
    intro a
    unfold importFieldsS importFields
    refine Res.bind' (fieldOutcomeS_res hf hr ctx c raw _ fd) ?_ ?_
    · intro o ho
      rw [ho]
      exact ih _
    · intro e he
      rw [he]

theorem importBodyS_res (hf : Steady fac) (hr : ∀ ctx b f v, Res (recS ctx b f v) (rec ctx b f v)) (ctx : Ctx) (c : ClassDef) (raw : Data) (errs0 : Errs) :
    Res (importBodyS fac recS env ctx c raw errs0) (importBody rec env ctx c raw errs0) := by
  unfold importBodyS importBody
  dsimp only
  refine Res.bind' (importFieldsS_res hf hr ctx c raw _ _) ?_ ?_
  · intro a ha
    rw [ha]
    exact Res.pure _
  · intro e he
    rw [he]

theorem runSettersS_res (hr : ∀ ctx b f v, Res (recS ctx b f v) (rec ctx b f v)) (ctx : Ctx) (raw : Data) (onInst : Bool) (fds : List FieldDef) :
    ∀ es d, Res (runSettersS recS ctx raw onInst fds es d) (runSetters rec ctx raw onInst fds es d) := by
  induction fds with
  | nil => intro es d; exact Res.pure _
  | cons fd fds ih =>
    intro es d
    have err : ∀ e, Res (St.bind (St.pure (setterError fd es e)) fun es => runSettersS recS ctx raw onInst fds es d)
        (if e.caught then runSetters rec ctx raw onInst fds (es.set (.str fd.extName) e.tree) d
        else
          match e with
          | .other "AttributeError" => runSetters rec ctx raw onInst fds es d
          | e => .error e) := by
      intro e
      refine Res.bind' (Res.pure _) ?_ ?_
      · intro es' he
        unfold setterError at he
        split at he
        · rename_i hc
          rw [if_pos hc]
          cases he
          exact ih _ _
        · rename_i hc
          rw [if_neg hc]
          split at he
          · cases he; exact ih _ _
          · cases he
      · intro e' he
        unfold setterError at he
        split at he
        · cases he
        · rename_i hc
          rw [if_neg hc]
          split at he
          · cases he
          · cases he
            split
            · simp_all
            · rfl
    unfold runSettersS runSetters
    dsimp only
    split
    · exact ih _ _
    · refine Res.handle (r := R.andThen (rec ctx true fd.field (rawValue raw fd.name)) fun w => callSetter fd w) (Res.bind (hr _ _ _ _) fun w _ => Res.pure _) ?_ ?_
      · intro asg hasg
        cases hx : rec ctx true fd.field (rawValue raw fd.name) with
        | error e => rw [hx] at hasg; cases hasg
        | ok w =>
          rw [hx] at hasg
          dsimp only [R.andThen, callSetter] at hasg ⊢
          cases hfs : fd.fset with
          | none => rw [hfs] at hasg; cases hasg; exact ih _ _
          | some g =>
            rw [hfs] at hasg
            dsimp only at hasg ⊢
            rw [hasg]
            exact ih _ _
      · intro e he
        cases hx : rec ctx true fd.field (rawValue raw fd.name) with
        | error e' =>
          rw [hx] at he
          cases he
          exact err e
        | ok w =>
          rw [hx] at he
          dsimp only [R.andThen, callSetter] at he ⊢
          cases hfs : fd.fset with
          | none => rw [hfs] at he; cases he
          | some g =>
            rw [hfs] at he
            dsimp only at he ⊢
            rw [he]
            exact err e

theorem runMutateS_res (hr : ∀ ctx b f v, Res (recS ctx b f v) (rec ctx b f v)) (ctx : Ctx) (c : ClassDef) (mu : Mut) (raw : Data) :
    Res (runMutateS recS ctx c mu raw) (runMutate rec ctx c mu raw) := by
  unfold runMutateS runMutate
  cases mu with
  | inst d =>
    dsimp only
    refine Res.bind' (runSettersS_res hr ctx raw true _ _ _) ?_ ?_
    · intro a ha; rw [ha]; exact Res.pure _
    · intro e he; rw [he]
  | same b =>
    dsimp only
    refine Res.bind' (runSettersS_res hr ctx raw false _ _ _) ?_ ?_
    · intro a ha; rw [ha]; exact Res.pure _
    · intro e he; rw [he]

theorem importLoopS_res (hf : Steady fac) (hr : ∀ ctx b f v, Res (recS ctx b f v) (rec ctx b f v)) (ctx : Ctx) (c : ClassDef) (mu : Mut) (raw : Data) :
    Res (importLoopS fac recS env ctx c mu raw) (importLoop rec env ctx c mu raw) := by
  unfold importLoopS importLoop
  split
  · refine Res.bind' (runMutateS_res hr ctx c mu raw) ?_ ?_
    · intro a ha; rw [ha]; exact importBodyS_res hf hr ctx c _ _
    · intro e he; rw [he]
  · exact importBodyS_res hf hr ctx c _ _

theorem validateFnS_res (hf : Steady fac) (hr : ∀ ctx b f v, Res (recS ctx b f v) (rec ctx b f v)) (ctx : Ctx) (c : ClassDef) (mu : Mut) (raw : Data) :
    Res (validateFnS fac recS env ctx c mu raw) (validateFn rec env ctx c mu raw) := by
  unfold validateFnS validateFn
  refine Res.bind' (runMutateS_res hr ctx c mu raw) ?_ ?_
  · intro m hm
    rw [hm]
    dsimp only
    have hb := importBodyS_res (env := env) hf hr ctx c m.raw m.errs
    generalize importBody rec env ctx c m.raw m.errs = x at hb ⊢
    have key : ∀ (y : R (Errs × Data)) (z : R Data), (∀ d, x = .ok d → y = .ok (([] : Errs), d)) → (∀ e, x = .error e → y = catchData e) → z = R.andThen y (fun r => finishValidate c ctx m r.1 r.2) →
        Res (St.bind (St.handle (importBodyS fac recS env ctx c m.raw m.errs) (fun d => St.pure (.ok (([] : Errs), d))) fun e => St.pure (catchData e)) fun r =>
          St.pure (finishValidate c ctx m r.1 r.2)) z := by
      intro y z h1 h2 h3
      rw [h3]
      refine Res.bind (Res.handle hb ?_ ?_) fun r _ => Res.pure _
      · intro d hd; rw [h1 d hd]; exact Res.pure _
      · intro e he; rw [h2 e he]; exact Res.pure _
    cases x with
    | ok d => exact key (.ok ([], d)) _ (fun d h => by cases h; rfl) nofun rfl
    | error e =>
      cases e with
      | data es d => exact key (.ok (es, d)) _ nofun (fun e h => by cases h; rfl) rfl
      | _ => exact key (.error _) _ nofun (fun e h => by cases h; rfl) rfl
  · intro e he; rw [he]

theorem listLoopS_res {f : Val → R Val} {fS : Val → St σ Val} (hf : ∀ v, Res (fS v) (f v)) (xs : List Val) : ∀ i, Res (listLoopS fS i xs) (listLoop f i xs) := by
  induction xs with
  | nil => intro i; exact Res.pure _
  | cons x xs ih =>
    intro i
    unfold listLoopS listLoop
    refine Res.handle (hf x) ?_ ?_
    · intro y hy
      rw [hy]
      refine Res.bind' (ih _) ?_ ?_
      · intro a ha; rw [ha]; exact Res.pure _
      · intro e he; rw [he]
    · intro e he
      rw [he]
      dsimp only
      split
      · refine Res.bind' (ih _) ?_ ?_
        · intro a ha; rw [ha]; exact Res.pure _
        · intro e he; rw [he]
      · exact Res.pure _

theorem dictLoopS_res {f : Val → R Val} {fS : Val → St σ Val} (hf : ∀ v, Res (fS v) (f v)) (coerce : Key → R Key) (kvs : List (Key × Val)) :
    ∀ d es, Res (dictLoopS fS coerce kvs d es) (dictLoop f coerce kvs d es) := by
  induction kvs with
  | nil => intro d es; exact Res.pure _
  | cons kv kvs ih =>
    obtain ⟨k, x⟩ := kv
    intro d es
    unfold dictLoopS dictLoop
    have hb : Res (St.bind (fS x) fun y => St.pure (coerced coerce k y)) (R.andThen (f x) fun y => coerced coerce k y) := Res.bind (hf x) fun y _ => Res.pure _
    unfold coerced at hb
    have err : ∀ e, R.andThen (f x) (fun y => coerced coerce k y) = .error e →
        Res (St.handle (St.bind (fS x) fun y => St.pure (coerced coerce k y)) (fun r => dictLoopS fS coerce kvs (d.set r.1 r.2) es) fun e =>
          if e.caught then dictLoopS fS coerce kvs d (es.set k e.tree) else St.pure (.error e))
        (if e.caught then dictLoop f coerce kvs d (es.set k e.tree) else .error e) := by
      intro e he
      refine Res.handle (hb.of_eq he) nofun ?_
      intro e' he'
      cases he'
      split
      · exact ih _ _
      · exact Res.pure _
    cases hx : f x with
    | error e => exact err e (by rw [hx]; rfl)
    | ok y =>
      cases hk : coerce k with
      | error e => exact err e (by rw [hx]; simp only [R.andThen, coerced, hk])
      | ok k' =>
        refine Res.handle (r := .ok (k', y)) (hb.of_eq (by rw [hx]; simp only [R.andThen, hk])) ?_ nofun
        intro r hr
        cases hr
        exact ih _ _

theorem newInstanceS_res (hf : Steady fac) (hr : ∀ ctx b f v, Res (recS ctx b f v) (rec ctx b f v)) (ctx : Ctx) (c : ClassDef) (raw : Data) :
    Res (newInstanceS fac recS env ctx c raw) (newInstance rec env ctx c raw) := by
  unfold newInstanceS newInstance
  refine Res.bind' (r := if ctx.validate then validateFn rec env ctx c (.inst []) raw else importLoop rec env ctx c (.inst []) raw) ?_ ?_ ?_
  · split
    · exact validateFnS_res hf hr ctx c _ _
    · exact importLoopS_res hf hr ctx c _ _
  · intro a ha; rw [ha]; exact Res.pure _
  · intro e he; rw [he]

theorem modelIntoS_res (hf : Steady fac) (hr : ∀ ctx b f v, Res (recS ctx b f v) (rec ctx b f v)) (ctx : Ctx) (c : ClassDef) (raw : Data) (b : Bool) :
    Res (modelIntoS fac recS env ctx c raw b) (modelInto rec env ctx c raw b) := by
  unfold modelIntoS modelInto
  split
  · exact newInstanceS_res hf hr ctx c raw
  · refine Res.bind' (importLoopS_res hf hr ctx c _ _) ?_ ?_
    · intro a ha; rw [ha]; exact Res.pure _
    · intro e he; rw [he]

theorem modelConvS_res (hf : Steady fac) (hr : ∀ ctx b f v, Res (recS ctx b f v) (rec ctx b f v)) (ctx : Ctx) (cls : String) (v : Val) :
    Res (modelConvS fac recS env ctx cls v) (modelConv rec env ctx cls v) := by
  have e : modelConv rec env ctx cls v = R.andThen (modelArgs env cls v) fun r => modelInto rec env ctx r.1 r.2.1 r.2.2 := by
    unfold modelConv modelArgs R.andThen
    cases v with
    | inst c' d => dsimp only; split
                   · cases env.cls c' <;> rfl
                   · rfl
    | dict d => dsimp only; cases env.cls cls <;> rfl
    | _ => rfl
  rw [e]
  exact Res.bind (Res.pure _) fun r _ => modelIntoS_res hf hr ctx _ _ _

theorem polyConvS_res (hf : Steady fac) (hr : ∀ ctx b f v, Res (recS ctx b f v) (rec ctx b f v)) (ctx : Ctx) (p : PolySpec) (v : Val) :
    Res (polyConvS fac recS env ctx p v) (polyConv rec env ctx p v) := by
  have e : polyConv rec env ctx p v = R.andThen (polyArgs env ctx p v) fun
      | .keep v => .ok v
      | .make c raw => newInstance rec env ctx c raw := by
    unfold polyConv polyArgs R.andThen
    split
    · rfl
    · split
      · rfl
      · cases p.findModel env v with
        | error e => rfl
        | ok k =>
          dsimp only
          cases env.cls k with
          | none => rfl
          | some c =>
            cases v <;> first | rfl | (dsimp only; split <;> rfl)
  rw [e]
  refine Res.bind (Res.pure _) fun r _ => ?_
  cases r with
  | keep v => exact Res.pure _
  | make c raw => exact newInstanceS_res hf hr ctx c raw

theorem convertFS_res (hf : Steady fac) (hr : ∀ ctx b f v, Res (recS ctx b f v) (rec ctx b f v)) (ctx : Ctx) (f : Field) (v : Val) :
    Res (convertFS fac recS env ctx f v) (convertF rec env ctx f v) := by
  unfold convertFS convertF
  cases f.ty with
  | leaf l => exact Res.pure _
  | list inner mn mx =>
    dsimp only
    cases coerceList env v with
    | none => exact Res.pure _
    | some xs =>
      dsimp only
      unfold listConv
      refine Res.bind' (listLoopS_res (fun v => hr ctx false inner v) xs 0) ?_ ?_
      · intro a ha; rw [ha]; exact Res.pure _
      · intro e he; rw [he]
  | dict inner coerce =>
    dsimp only
    cases v <;> first
      | exact Res.pure _
      | (dsimp only
         unfold dictConv
         refine Res.bind' (dictLoopS_res (fun v => hr ctx false inner v) coerce _ _ _) ?_ ?_
         · intro a ha; rw [ha]; exact Res.pure _
         · intro e he; rw [he])
  | model cls => exact modelConvS_res hf hr ctx cls v
  | poly p => exact polyConvS_res hf hr ctx p v

theorem fieldConvFS_res (hf : Steady fac) (hr : ∀ ctx b f v, Res (recS ctx b f v) (rec ctx b f v)) (ctx : Ctx) (named : Bool) (f : Field) (v : Val) :
    Res (fieldConvFS fac recS env ctx named f v) (fieldConvF rec env ctx named f v) := by
  unfold fieldConvFS fieldConvF
  split
  · exact Res.pure _
  · split
    · exact Res.pure _
    · cases ctx.conv with
      | imp => exact convertFS_res hf hr ctx f v
      | val =>
        dsimp only
        unfold validateFS validateF
        cases f.ty.override with
        | some g => exact Res.pure _
        | none =>
          dsimp only
          split
          · refine Res.bind' (convertFS_res hf hr ctx f v) ?_ ?_
            · intro a ha; rw [ha]; exact Res.pure _
            · intro e he; rw [he]
          · split
            · refine Res.bind' (convertFS_res hf hr ctx f v) ?_ ?_
              · intro a ha; rw [ha]; exact Res.pure _
              · intro e he; rw [he]
            · exact Res.pure _

theorem fieldConvS_res (hf : Steady fac) (n : Nat) : ∀ ctx b f v, Res (fieldConvS fac env n ctx b f v) (fieldConv env n ctx b f v) := by
  induction n with
  | zero => intro ctx b f v; exact Res.pure _
  | succ n ih => intro ctx b f v; exact fieldConvFS_res hf ih ctx b f v
end steady

/-- **C97, steady factories**: a factory that always returns the same value is as good as that value: import and validation have the results they have with a plain default, whatever
the factory does besides. -/
theorem C97_steady (fac : Factory σ) (hf : Steady fac) (env : Env) (n : Nat) (ctx : Ctx) (c : ClassDef) (mu : Mut) (raw : Data) (s : σ) :
    (runImportS fac env n ctx c mu raw s).1 = runImport env n ctx c mu raw ∧ (runValidateS fac env n ctx c mu raw s).1 = runValidate env n ctx c mu raw :=
  ⟨importLoopS_res hf (fieldConvS_res hf n) ctx c mu raw s, validateFnS_res hf (fieldConvS_res hf n) ctx c mu raw s⟩

/-! ## Which factories are called, and when -/

/-- What is seen of an import loop: a default was read, a field was converted, each with its outcome. -/
inductive LoopEv
  | dflt (fd : FieldDef) (r : R Val)
  | conv (f : Field) (v : Val) (r : R Val)

/-- The factories, watched. -/
def Factory.logged (fac : Factory σ) : Factory (σ × List LoopEv) := fun c fd s =>
  ((fac c fd s.1).1, ((fac c fd s.1).2, s.2 ++ [.dflt fd (fac c fd s.1).1]))

/-- The field converter, watched. -/
def SRec.logged (rec : SRec σ) : SRec (σ × List LoopEv) := fun ctx b f v s =>
  ((rec ctx b f v s.1).1, ((rec ctx b f v s.1).2, s.2 ++ [.conv f v (rec ctx b f v s.1).1]))

/-- Specification: what is stored for a field whose conversion failed, if its default is `d`: partial data, else the default, else nothing. -/
inductive Replaced : Exc → Val → Option Val → Prop
  | partial_ (es part d) : Replaced (.data es part) d (some (.dict part))
  | default (e d) : (∀ es part, e ≠ .data es part) → d.isUndef = false → Replaced e d (some d)
  | nothing (e) : (∀ es part, e ≠ .data es part) → Replaced e .undef none

/-- Specification, one conversion: what is seen, and what becomes of the field; an exception ends the import. -/
inductive ConvRun (ctx : Ctx) (fd : FieldDef) (v : Val) : List LoopEv → R Outcome → Prop
  | stored (w) : w.isUndef = false → ConvRun ctx fd v [.conv fd.field v (.ok w)] (.ok (.store w))
  | left : ConvRun ctx fd v [.conv fd.field v (.ok .undef)] (.ok .skip)
  | uncaught (e) : e.caught = false → ConvRun ctx fd v [.conv fd.field v (.error e)] (.error e)
  | failed (e r) : e.caught = true → ctx.defaults = false → Replaced e .undef r → ConvRun ctx fd v [.conv fd.field v (.error e)] (.ok (.fail e.tree r))
  | again (e d r) : e.caught = true → ctx.defaults = true → Replaced e d r → ConvRun ctx fd v [.conv fd.field v (.error e), .dflt fd (.ok d)] (.ok (.fail e.tree r))
  | raise (e e') : e.caught = true → ctx.defaults = true → ConvRun ctx fd v [.conv fd.field v (.error e), .dflt fd (.error e')] (.error e')

/-- Specification, one field. -/
inductive FieldRun (ctx : Ctx) (raw : Data) (fd : FieldDef) : List LoopEv → R Outcome → Prop
  | trusted : (inputValue raw ctx.mapping fd).isUndef = true → ctx.trusted.has (.str fd.name) = true → FieldRun ctx raw fd [] (.ok .skip)
  | supplied (evs x) : (inputValue raw ctx.mapping fd).isUndef = false → ConvRun ctx fd (inputValue raw ctx.mapping fd) evs x → FieldRun ctx raw fd evs x
  | missing (evs x) : (inputValue raw ctx.mapping fd).isUndef = true → ctx.trusted.has (.str fd.name) = false → ctx.defaults = false →
      ConvRun ctx fd (if ctx.init then .none else .undef) evs x → FieldRun ctx raw fd evs x
  | default (d evs x) : (inputValue raw ctx.mapping fd).isUndef = true → ctx.trusted.has (.str fd.name) = false → ctx.defaults = true →
      ConvRun ctx fd (if d.isUndef && ctx.init then .none else d) evs x → FieldRun ctx raw fd (.dflt fd (.ok d) :: evs) x
  | raise (e) : (inputValue raw ctx.mapping fd).isUndef = true → ctx.trusted.has (.str fd.name) = false → ctx.defaults = true →
      FieldRun ctx raw fd [.dflt fd (.error e)] (.error e)

/-- Specification: the fields one after the other, until an exception ends the import. -/
inductive LoopRun (ctx : Ctx) (raw : Data) : List FieldDef → Acc → List LoopEv → R Acc → Prop
  | nil (a) : LoopRun ctx raw [] a [] (.ok a)
  | cons (fd fds a o evs evs' x) : FieldRun ctx raw fd evs (.ok o) → LoopRun ctx raw fds (a.apply fd o) evs' x → LoopRun ctx raw (fd :: fds) a (evs ++ evs') x
  | stop (fd fds a evs e) : FieldRun ctx raw fd evs (.error e) → LoopRun ctx raw (fd :: fds) a evs (.error e)

theorem eq_undef {v : Val} (h : v.isUndef = true) : v = .undef := by
  revert h; cases v <;> first | (intro _; rfl) | exact nofun

theorem replaced (e : Exc) (d : Val) : Replaced e d (match e with | .data _ part => some (.dict part) | _ => if d.isUndef then none else some d) := by
  cases e with
  | data es part => exact .partial_ es part d
  | _ =>
    cases hd : d.isUndef with
    | true => rw [eq_undef hd]; exact .nothing _ nofun
    | false => exact .default _ d nofun hd

theorem convRun (fac : Factory σ) (rec : SRec σ) (ctx fctx : Ctx) (c : ClassDef) (fd : FieldDef) (v : Val) (s : σ) (l : List LoopEv) :
    ∃ evs, ((St.handle (rec.logged fctx true fd.field v) (fun w => St.pure (.ok (keepValue w))) fun e =>
        if e.caught then St.bind (failReplS fac.logged ctx c fd e) fun r => St.pure (.ok (.fail e.tree r)) else St.pure (.error e)) (s, l)).2.2 = l ++ evs ∧
      ConvRun ctx fd v evs ((St.handle (rec.logged fctx true fd.field v) (fun w => St.pure (.ok (keepValue w))) fun e =>
        if e.caught then St.bind (failReplS fac.logged ctx c fd e) fun r => St.pure (.ok (.fail e.tree r)) else St.pure (.error e)) (s, l)).1 := by
  unfold St.handle SRec.logged
  dsimp only
  rcases hx : rec fctx true fd.field v s with ⟨x, s1⟩
  cases x with
  | ok w =>
    refine ⟨_, rfl, ?_⟩
    dsimp only [St.pure, keepValue]
    cases hw : w.isUndef with
    | true => rw [eq_undef hw]; exact .left
    | false => exact .stored w hw
  | error e =>
    dsimp only
    cases hc : e.caught with
    | false => exact ⟨_, rfl, .uncaught e hc⟩
    | true =>
      rw [if_pos rfl]
      unfold failReplS
      cases hd : ctx.defaults with
      | false =>
        exact ⟨[.conv fd.field v (.error e)], rfl, .failed e _ hc hd (replaced e .undef)⟩
      | true =>
        rw [if_pos rfl]
        unfold St.bind Factory.logged
        dsimp only
        rcases hy : fac c fd s1 with ⟨y, s2⟩
        cases y with
        | error e' => exact ⟨[.conv fd.field v (.error e), .dflt fd (.error e')], by simp, .raise e e' hc hd⟩
        | ok d => exact ⟨[.conv fd.field v (.error e), .dflt fd (.ok d)], by simp [St.pure], .again e d _ hc hd (replaced e d)⟩

theorem fieldRun (fac : Factory σ) (rec : SRec σ) (env : Env) (ctx : Ctx) (c : ClassDef) (raw : Data) (fd : FieldDef) (s : σ) (l : List LoopEv) :
    ∃ evs, (fieldOutcomeS fac.logged rec.logged env ctx c raw (ctx.trusted.has (.str fd.name)) fd (s, l)).2.2 = l ++ evs ∧
      FieldRun ctx raw fd evs (fieldOutcomeS fac.logged rec.logged env ctx c raw (ctx.trusted.has (.str fd.name)) fd (s, l)).1 := by
  unfold fieldOutcomeS
  generalize (if fd.field.ty.isCompound then subCtx env ctx fd.name else ctx) = fctx
  cases hu : (inputValue raw ctx.mapping fd).isUndef with
  | false =>
    obtain ⟨evs, h1, h2⟩ := convRun fac rec ctx fctx c fd (inputValue raw ctx.mapping fd) s l
    rw [Bool.false_and, if_neg Bool.false_ne_true]
    refine ⟨evs, ?_⟩
    have e : fillValueS fac.logged ctx c fd (inputValue raw ctx.mapping fd) = St.pure (.ok (inputValue raw ctx.mapping fd)) := by
      unfold fillValueS
      funext s
      simp [hu, St.bind, St.pure]
    rw [e]
    exact ⟨h1, .supplied evs _ hu h2⟩
  | true =>
    rw [Bool.true_and]
    cases ht : ctx.trusted.has (.str fd.name) with
    | true => exact ⟨[], by simp [St.pure], .trusted hu ht⟩
    | false =>
      rw [if_neg Bool.false_ne_true]
      unfold fillValueS
      rw [hu, Bool.true_and]
      cases hd : ctx.defaults with
      | false =>
        rw [if_neg Bool.false_ne_true]
        have hv := eq_undef hu
        obtain ⟨evs, h1, h2⟩ := convRun fac rec ctx fctx c fd (if ctx.init then .none else .undef) s l
        refine ⟨evs, ?_⟩
        rw [hv]
        exact ⟨h1, .missing evs _ hu ht hd h2⟩
      | true =>
        rw [if_pos rfl]
        rcases hy : fac c fd s with ⟨y, s1⟩
        cases y with
        | error e =>
          refine ⟨[.dflt fd (.error e)], ?_⟩
          simp only [St.bind, Factory.logged, hy]
          exact ⟨trivial, .raise e hu ht hd⟩
        | ok d =>
          obtain ⟨evs, h1, h2⟩ := convRun fac rec ctx fctx c fd (if d.isUndef && ctx.init then .none else d) s1 (l ++ [.dflt fd (.ok d)])
          refine ⟨.dflt fd (.ok d) :: evs, ?_⟩
          simp only [St.bind, Factory.logged, hy, St.pure]
          rw [List.append_assoc] at h1
          exact ⟨h1, .default d evs _ hu ht hd h2⟩

/-- **C97, the sequence**: the import loop handles the fields in order.  A field whose value comes from trusted data is not touched.  A supplied value is converted, and its default is not
read before.  The default of an absent field is read once, its value is converted.  If the conversion fails, the default is read once more, unless there is partial data to store, and in
that case it is read as well, but not stored.  Whatever a factory raises ends the import at once. -/
theorem C97_sequence (fac : Factory σ) (rec : SRec σ) (env : Env) (ctx : Ctx) (c : ClassDef) (raw : Data) (fds : List FieldDef) :
    ∀ (a : Acc) (s : σ) (l : List LoopEv), (fds.map (·.name)).Nodup → (∀ fd ∈ fds, a.data.has (.str fd.name) = ctx.trusted.has (.str fd.name)) →
    ∃ evs, (importFieldsS fac.logged rec.logged env ctx c raw fds a (s, l)).2.2 = l ++ evs ∧
      LoopRun ctx raw fds a evs (importFieldsS fac.logged rec.logged env ctx c raw fds a (s, l)).1 := by
  induction fds with
  | nil => intro a s l _ _; exact ⟨[], by simp [importFieldsS, St.pure], .nil a⟩
  | cons fd fds ih =>
    intro a s l hn ht
    obtain ⟨evs, h1, h2⟩ := fieldRun fac rec env ctx c raw fd s l
    rw [← ht fd (List.mem_cons_self ..)] at h1 h2
    unfold importFieldsS St.bind
    rcases hx : fieldOutcomeS fac.logged rec.logged env ctx c raw (a.data.has (.str fd.name)) fd (s, l) with ⟨x, s1, l1⟩
    rw [hx] at h1 h2
    dsimp only at h1
    subst h1
    cases x with
    | error e => exact ⟨evs, rfl, .stop fd fds a evs e h2⟩
    | ok o =>
      rw [List.map_cons, List.nodup_cons] at hn
      obtain ⟨evs', i1, i2⟩ := ih (a.apply fd o) s1 (l ++ evs) hn.2 (fun fd' hfd' => by
        have hne : Key.str fd'.name ≠ Key.str fd.name := fun heq => by
          injection heq with heq
          exact hn.1 (by rw [← heq]; exact List.mem_map_of_mem hfd')
        rw [Dict.has, apply_data_has_ne _ _ _ hne]
        exact ht fd' (List.mem_cons_of_mem _ hfd'))
      exact ⟨evs ++ evs', by rw [← List.append_assoc]; exact i1, .cons fd fds a o evs evs' _ h2 i2⟩

/-- Whether an event is a conversion that failed. -/
def LoopEv.failedConv : LoopEv → Bool
  | .conv _ _ (.error _) => true
  | _ => false

/-- The field whose default was read. -/
def LoopEv.read? : LoopEv → Option FieldDef
  | .dflt fd _ => some fd
  | _ => none

/-- A field that needs its default: no input under any of its names, not in the trusted data. -/
def needsDefault (ctx : Ctx) (raw : Data) (fd : FieldDef) : Bool :=
  ctx.defaults && (inputValue raw ctx.mapping fd).isUndef && !ctx.trusted.has (.str fd.name)

theorem convRun_reads {ctx : Ctx} {fd : FieldDef} {v : Val} {evs : List LoopEv} {x : R Outcome} (h : ConvRun ctx fd v evs x) (hc : evs.all (fun e => !e.failedConv) = true) :
    evs.filterMap LoopEv.read? = [] := by
  cases h <;> first | rfl | (simp [LoopEv.failedConv] at hc)

theorem fieldRun_reads {ctx : Ctx} {raw : Data} {fd : FieldDef} {evs : List LoopEv} {x : R Outcome} (h : FieldRun ctx raw fd evs x)
    (hc : evs.all (fun e => !e.failedConv) = true) : evs.filterMap LoopEv.read? = if needsDefault ctx raw fd then [fd] else [] := by
  unfold needsDefault
  cases h with
  | trusted h1 h2 => rw [h1, h2]; simp
  | supplied _ _ h1 h2 => rw [h1, convRun_reads h2 hc]; simp
  | missing _ _ h1 h2 h3 h4 => rw [h3, convRun_reads h4 hc]; simp
  | default d evs _ h1 h2 h3 h4 =>
    rw [List.all_cons, Bool.and_eq_true] at hc
    rw [h1, h2, h3, List.filterMap_cons, convRun_reads h4 hc.2]
    rfl
  | raise e h1 h2 h3 => rw [h1, h2, h3]; rfl

theorem loopRun_reads {ctx : Ctx} {raw : Data} {fds : List FieldDef} {a a' : Acc} {evs : List LoopEv} {x : R Acc} (h : LoopRun ctx raw fds a evs x) (hx : x = .ok a')
    (hc : evs.all (fun e => !e.failedConv) = true) : evs.filterMap LoopEv.read? = fds.filter (needsDefault ctx raw) := by
  induction h with
  | nil a => rfl
  | cons fd fds a o evs evs' x h1 h2 ih =>
    rw [List.all_append, Bool.and_eq_true] at hc
    rw [List.filterMap_append, fieldRun_reads h1 hc.1, ih hx hc.2, List.filter_cons]
    split <;> rfl
  | stop fd fds a evs e h1 => cases hx

/-- **C97, once per absent field**: in an import loop without failing conversions, the factories are called exactly once each, in the order of the fields, for the fields that have
neither input nor trusted data; if defaults are not applied, none is called. -/
theorem C97_once (fac : Factory σ) (rec : SRec σ) (env : Env) (ctx : Ctx) (c : ClassDef) (hc : c.WF) (raw : Data) (errs : Errs) (s : σ) (a : Acc) (s' : σ) (l : List LoopEv)
    (h : importFieldsS fac.logged rec.logged env ctx c raw (c.loopFields ctx) ⟨ctx.trusted, errs⟩ (s, []) = (.ok a, (s', l))) (hl : ∀ e ∈ l, e.failedConv = false) :
    l.filterMap LoopEv.read? = (c.loopFields ctx).filter (needsDefault ctx raw) := by
  obtain ⟨evs, h1, h2⟩ := C97_sequence fac rec env ctx c raw (c.loopFields ctx) ⟨ctx.trusted, errs⟩ s [] (loopFields_nodup hc ctx) (fun _ _ => rfl)
  rw [h] at h1 h2
  rw [List.nil_append] at h1
  subst h1
  exact loopRun_reads h2 rfl (by rw [List.all_eq_true]; intro e he; rw [hl e he]; rfl)

theorem convRun_raises {ctx : Ctx} {fd fd' : FieldDef} {v : Val} {evs : List LoopEv} {x : R Outcome} (h : ConvRun ctx fd v evs x) {e : Exc} (he : LoopEv.dflt fd' (.error e) ∈ evs) :
    x = .error e := by
  cases h <;> simp at he
  rw [he.2]

theorem fieldRun_raises {ctx : Ctx} {raw : Data} {fd fd' : FieldDef} {evs : List LoopEv} {x : R Outcome} (h : FieldRun ctx raw fd evs x) {e : Exc}
    (he : LoopEv.dflt fd' (.error e) ∈ evs) : x = .error e := by
  cases h with
  | trusted h1 h2 => cases he
  | supplied _ _ h1 h2 => exact convRun_raises h2 he
  | missing _ _ h1 h2 h3 h4 => exact convRun_raises h4 he
  | default d evs _ h1 h2 h3 h4 =>
    rcases List.mem_cons.1 he with he | he
    · cases he
    · exact convRun_raises h4 he
  | raise e' h1 h2 h3 =>
    simp at he
    rw [he.2]

theorem loopRun_raises {ctx : Ctx} {raw : Data} {fd' : FieldDef} {fds : List FieldDef} {a : Acc} {evs : List LoopEv} {x : R Acc} (h : LoopRun ctx raw fds a evs x) {e : Exc}
    (he : LoopEv.dflt fd' (.error e) ∈ evs) : x = .error e := by
  induction h with
  | nil a => cases he
  | cons fd fds a o evs evs' x h1 h2 ih =>
    rcases List.mem_append.1 he with he | he
    · cases fieldRun_raises h1 he
    · exact ih he
  | stop fd fds a evs e' h1 => cases fieldRun_raises h1 he; rfl

/-- **C97, exceptions of factories**: whatever a factory raises comes out of the import as it is, also if it is a `ConversionError`, a `ValidationError` or a `DataError`; errors collected
before are lost. -/
theorem C97_factory_error (fac : Factory σ) (rec : SRec σ) (env : Env) (ctx : Ctx) (c : ClassDef) (hc : c.WF) (raw : Data) (errs : Errs) (s : σ) (fd : FieldDef) (e : Exc)
    (h : LoopEv.dflt fd (.error e) ∈ (importBodyS fac.logged rec.logged env ctx c raw errs (s, [])).2.2) :
    (importBodyS fac.logged rec.logged env ctx c raw errs (s, [])).1 = .error e := by
  unfold importBodyS at h ⊢
  generalize (rogueKeys ctx c raw).foldl (fun es k => Dict.set es k .rogue) errs = errs1 at h ⊢
  obtain ⟨evs, h1, h2⟩ := C97_sequence fac rec env ctx c raw (c.loopFields ctx) ⟨ctx.trusted, errs1⟩ s [] (loopFields_nodup hc ctx) (fun _ _ => rfl)
  unfold St.bind at h ⊢
  rcases hx : importFieldsS fac.logged rec.logged env ctx c raw (c.loopFields ctx) ⟨ctx.trusted, errs1⟩ (s, []) with ⟨x, s1, l1⟩
  rw [hx] at h h1 h2
  rw [List.nil_append] at h1
  subst h1
  cases x with
  | error e' => cases loopRun_raises h2 h; rfl
  | ok a => cases loopRun_raises h2 h

/-! ## Witnesses -/

namespace Samples
/-- `class Ticket(Model): a = IntType(default=f); b = IntType(default=g)`. -/
def ticket : ClassDef where
  name := "Ticket"
  fields := [{ name := "a", field := intF }, { name := "b", field := intF }]

/-- A counter. -/
def counter : Factory Nat := fun _ _ s => (.ok (.int (s : Int)), s + 1)

/-- The factory of `b` raises. -/
def broken (e : Exc) : Factory Nat := fun _ fd s => (if fd.name = "b" then .error e else .ok (.int (s : Int)), s + 1)
end Samples

open Samples in
/-- Each import calls the factories anew. -/
theorem C97_counterexample_shared :
    runImportS counter env 3 ictx ticket (.inst []) [] 5 = (.ok [(.str "a", .int 5), (.str "b", .int 6)], 7) ∧
    runImportS counter env 3 ictx ticket (.inst []) [] 7 = (.ok [(.str "a", .int 7), (.str "b", .int 8)], 9) := ⟨rfl, rfl⟩

open Samples in
/-- **C97, counterexample, supplied values**: the factory of a field is called although the field was supplied, if the value is invalid; the result is the partial data of the error. -/
theorem C97_counterexample_supplied :
    runImportS counter env 3 ictx ticket (.inst []) [(.str "a", .str "x"), (.str "b", .int 1)] 5 =
      (.error (.data [(.str "a", .leaf .conv ["int"])] [(.str "a", .int 5), (.str "b", .int 1)]), 6) := rfl

open Samples in
/-- **C97, counterexample, errors**: the `ConversionError` of a factory comes out without the name of its field, and the error of field `a` is lost. -/
theorem C97_counterexample_error :
    runImportS (broken (.field .conv ["factory"])) env 3 ictx ticket (.inst []) [(.str "a", .str "x")] 5 = (.error (.field .conv ["factory"]), 7) := rfl

open Samples in
/-- **C97, counterexample, `DataError`**: `validate` takes the `DataError` of a factory for that of its own import. -/
theorem C97_counterexample_data :
    runValidateS (broken (.data [(.str "z", .msgs ["factory"])] [(.str "zz", .int 0)])) env 3 vctx ticket (.inst []) [(.str "a", .str "x")] 5 =
      (.error (.data [(.str "z", .msgs ["factory"])] [(.str "zz", .int 0)]), 7) := rfl

/-! ## The hypotheses are met -/

/-- A factory that counts its calls. -/
example : Steady (fun _ fd n => (.ok fd.field.o.default, n + 1) : Factory Nat) := fun _ _ _ => rfl

example : Samples.ticket.WF := by unfold ClassDef.WF; decide

open Samples in
example : ∃ a s l, importFieldsS counter.logged (fieldConvS counter env 2).logged env ictx ticket [(.str "b", .int 1)] (ticket.loopFields ictx) ⟨ictx.trusted, []⟩ (5, []) = (.ok a, (s, l)) ∧
    (∀ e ∈ l, e.failedConv = false) ∧ l.filterMap (fun e => e.read?.map (·.name)) = ["a"] := by
  refine ⟨_, _, _, rfl, ?_, rfl⟩
  intro e he
  simp only [List.mem_append, List.mem_singleton, List.not_mem_nil, false_or] at he
  rcases he with (he | he) | he <;> (subst he; rfl)

open Samples in
example : ∃ fd, LoopEv.dflt fd (.error (.other "KeyError")) ∈
    (importBodyS (broken (.other "KeyError")).logged (fieldConvS (broken (.other "KeyError")) env 2).logged env ictx ticket [] [] (5, [])).2.2 :=
  ⟨_, List.mem_append_right _ (List.mem_singleton.2 rfl)⟩

end Verif
