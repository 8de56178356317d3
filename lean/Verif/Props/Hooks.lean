import Verif.Core.Hooks
import Verif.Props.Factory

/-!
# C102: when user code is called
-/
namespace Verif

/-! ## User code whose results depend on its arguments only -/

/-- Every call returns or raises what the pure meaning says, whatever else it does. -/
structure Hooks.Steady (h : Hooks σ) : Prop where
  dflt : ∀ p c fd, Res (h.dflt p c fd) (.ok fd.field.o.default)
  native : ∀ p l app v, Res (h.native p l app v) (l.toNative app v)
  override : ∀ p g b app v, Res (h.override p g b app v) (g b app v)
  check : ∀ p f app v, Res (h.check p f app v) (f app v)
  model : ∀ p f m d v app, Res (h.model p f m d v app) (f m d v app)
  setter : ∀ p f w, Res (h.setter p f w) (f w)

section steady
variable {h : Hooks σ} {rec : Rec} {recH : HRec σ} {env : Env}

theorem fillValueH_res (hf : h.Steady) (p : Place) (ctx : Ctx) (c : ClassDef) (fd : FieldDef) (v : Val) : Res (fillValueH h p ctx c fd v) (.ok (fillValue ctx fd v)) := by
  unfold fillValueH fillValue
  refine Res.bind' (r := .ok (if v.isUndef && ctx.defaults then fd.field.o.default else v)) ?_ ?_ nofun
  · split
    · exact hf.dflt _ c fd
    · exact Res.pure _
  · intro a ha
    cases ha
    exact Res.pure _

theorem failReplH_res (hf : h.Steady) (p : Place) (ctx : Ctx) (c : ClassDef) (fd : FieldDef) (e : Exc) : Res (failReplH h p ctx c fd e) (.ok (failRepl ctx fd e)) := by
  unfold failReplH failRepl
  refine Res.bind' (r := .ok (if ctx.defaults then fd.field.o.default else .undef)) ?_ ?_ nofun
  · split
    · exact hf.dflt _ c fd
    · exact Res.pure _
  · intro a ha
    cases ha
    refine (Res.pure _).of_eq (congrArg Except.ok ?_)
    cases e <;> first
      | rfl
      | (cases hd : ctx.defaults
         · rfl
         · cases hu : fd.field.o.default.isUndef <;> simp [hu])

theorem fieldOutcomeH_res (hf : h.Steady) (hr : ∀ p ctx b f v, Res (recH p ctx b f v) (rec ctx b f v)) (p : Place) (ctx : Ctx) (c : ClassDef) (raw : Data) (inData : Bool) (fd : FieldDef) :
    Res (fieldOutcomeH h recH env p ctx c raw inData fd) (fieldOutcome rec env ctx raw inData fd) := by
  unfold fieldOutcomeH fieldOutcome
  dsimp only
  split
  · exact Res.pure _
  · refine Res.bind' (fillValueH_res hf _ ctx c fd _) ?_ nofun
    intro v hv
    cases hv
    refine Res.handle (hr _ _ _ _ _) ?_ ?_
    · intro w hw
      rw [hw]
      refine (Res.pure _).of_eq ?_
      unfold keepValue
      dsimp only
      split <;> rfl
    · intro e he
      rw [he]
      dsimp only
      split
      · refine Res.bind' (failReplH_res hf _ ctx c fd e) ?_ nofun
        intro r hr
        cases hr
        exact Res.pure _
      · exact Res.pure _

theorem importFieldsH_res (hf : h.Steady) (hr : ∀ p ctx b f v, Res (recH p ctx b f v) (rec ctx b f v)) (p : Place) (ctx : Ctx) (c : ClassDef) (raw : Data) (fds : List FieldDef) :
    ∀ i a, Res (importFieldsH h recH env p ctx c raw i fds a) (importFields rec env ctx raw fds a) := by
  induction fds with
  | nil => intro i a; exact Res.pure _
  | cons fd fds ih =>
    intro i a
    unfold importFieldsH importFields
    refine Res.bind' (fieldOutcomeH_res hf hr _ ctx c raw _ fd) ?_ ?_
    · intro o ho
      rw [ho]
      exact ih _ _
    · intro e he
      rw [he]

theorem importBodyH_res (hf : h.Steady) (hr : ∀ p ctx b f v, Res (recH p ctx b f v) (rec ctx b f v)) (p : Place) (ctx : Ctx) (c : ClassDef) (raw : Data) (errs0 : Errs) :
    Res (importBodyH h recH env p ctx c raw errs0) (importBody rec env ctx c raw errs0) := by
  unfold importBodyH importBody
  dsimp only
  refine Res.bind' (importFieldsH_res hf hr _ ctx c raw _ _ _) ?_ ?_
  · intro a ha
    rw [ha]
    exact Res.pure _
  · intro e he
    rw [he]

theorem callSetterH_res (hf : h.Steady) (p : Place) (fd : FieldDef) (w : Val) : Res (callSetterH h p fd w) (callSetter fd w) := by
  unfold callSetterH callSetter
  cases fd.fset with
  | none => exact Res.pure _
  | some g => exact hf.setter _ _ _

theorem runSettersH_res (hf : h.Steady) (hr : ∀ p ctx b f v, Res (recH p ctx b f v) (rec ctx b f v)) (p : Place) (ctx : Ctx) (raw : Data) (onInst : Bool) (fds : List FieldDef) :
    ∀ i es d, Res (runSettersH h recH p ctx raw onInst i fds es d) (runSetters rec ctx raw onInst fds es d) := by
  induction fds with
  | nil => intro i es d; exact Res.pure _
  | cons fd fds ih =>
    intro i es d
    have err : ∀ e, Res (St.bind (St.pure (setterError fd es e)) fun es => runSettersH h recH p ctx raw onInst (i + 1) fds es d)
        (if e.caught then runSetters rec ctx raw onInst fds (es.set (.str fd.extName) e.tree) d
        else
          match e with
          | .other "AttributeError" => runSetters rec ctx raw onInst fds es d
          | e => .error e) := by
      intro e
      refine Res.bind' (Res.pure _) ?_ ?_
      · intro es' he
        unfold setterError at he
        split at he
        · rename_i hc
          rw [if_pos hc]
          cases he
          exact ih _ _ _
        · rename_i hc
          rw [if_neg hc]
          split at he
          · cases he; exact ih _ _ _
          · cases he
      · intro e' he
        unfold setterError at he
        split at he
        · cases he
        · rename_i hc
          rw [if_neg hc]
          split at he
          · cases he
          · cases he
            split
            · simp_all
            · rfl
    unfold runSettersH runSetters
    dsimp only
    split
    · exact ih _ _ _
    · refine Res.handle (r := R.andThen (rec ctx true fd.field (rawValue raw fd.name)) fun w => callSetter fd w) (Res.bind (hr _ _ _ _ _) fun w _ => callSetterH_res hf _ fd w) ?_ ?_
      · intro asg hasg
        cases hx : rec ctx true fd.field (rawValue raw fd.name) with
        | error e => rw [hx] at hasg; cases hasg
        | ok w =>
          rw [hx] at hasg
          dsimp only [R.andThen, callSetter] at hasg ⊢
          cases hfs : fd.fset with
          | none => rw [hfs] at hasg; cases hasg; exact ih _ _ _
          | some g =>
            rw [hfs] at hasg
            dsimp only at hasg ⊢
            rw [hasg]
            exact ih _ _ _
      · intro e he
        cases hx : rec ctx true fd.field (rawValue raw fd.name) with
        | error e' =>
          rw [hx] at he
          cases he
          exact err e
        | ok w =>
          rw [hx] at he
          dsimp only [R.andThen, callSetter] at he ⊢
          cases hfs : fd.fset with
          | none => rw [hfs] at he; cases he
          | some g =>
            rw [hfs] at he
            dsimp only at he ⊢
            rw [he]
            exact err e

theorem runMutateH_res (hf : h.Steady) (hr : ∀ p ctx b f v, Res (recH p ctx b f v) (rec ctx b f v)) (p : Place) (ctx : Ctx) (c : ClassDef) (mu : Mut) (raw : Data) :
    Res (runMutateH h recH p ctx c mu raw) (runMutate rec ctx c mu raw) := by
  unfold runMutateH runMutate
  cases mu with
  | inst d =>
    dsimp only
    refine Res.bind' (runSettersH_res hf hr _ ctx raw true _ _ _ _) ?_ ?_
    · intro a ha; rw [ha]; exact Res.pure _
    · intro e he; rw [he]
  | same b =>
    dsimp only
    refine Res.bind' (runSettersH_res hf hr _ ctx raw false _ _ _ _) ?_ ?_
    · intro a ha; rw [ha]; exact Res.pure _
    · intro e he; rw [he]

theorem importLoopH_res (hf : h.Steady) (hr : ∀ p ctx b f v, Res (recH p ctx b f v) (rec ctx b f v)) (p : Place) (ctx : Ctx) (c : ClassDef) (mu : Mut) (raw : Data) :
    Res (importLoopH h recH env p ctx c mu raw) (importLoop rec env ctx c mu raw) := by
  unfold importLoopH importLoop
  split
  · refine Res.bind' (runMutateH_res hf hr _ ctx c mu raw) ?_ ?_
    · intro a ha; rw [ha]; exact importBodyH_res hf hr _ ctx c _ _
    · intro e he; rw [he]
  · exact importBodyH_res hf hr _ ctx c _ _

theorem modelValidatorsH_res (hf : h.Steady) (p : Place) (c : ClassDef) (mv : Data) (app : Val) (fds : List FieldDef) :
    ∀ i d, Res (modelValidatorsH h p c mv app i fds d) (modelValidators c mv app fds d) := by
  induction fds with
  | nil => intro i d; exact Res.pure _
  | cons fd fds ih =>
    intro i d
    unfold modelValidatorsH modelValidators methodFor
    cases (if (rawValue d fd.name).isUndef then none else Dict.get? c.validators fd.name) with
    | none => exact ih _ _
    | some f =>
      dsimp only
      refine Res.handle (hf.model _ f mv d _ app) ?_ ?_
      · intro d' hd; rw [hd]; exact ih _ _
      · intro e he
        rw [he]
        dsimp only
        cases e with
        | field k m =>
          refine Res.bind' (Res.pure _) ?_ nofun
          intro t ht
          cases ht
          refine Res.bind' (ih _ _) ?_ ?_
          · intro a ha; rw [ha]; exact Res.pure _
          · intro e he; rw [he]
        | data es d' =>
          refine Res.bind' (Res.pure _) ?_ nofun
          intro t ht
          cases ht
          refine Res.bind' (ih _ _) ?_ ?_
          · intro a ha; rw [ha]; exact Res.pure _
          · intro e he; rw [he]
        | _ => exact Res.bind' (Res.pure _) nofun (fun _ h => by cases h; rfl)

theorem validateModelH_res (hf : h.Steady) (p : Place) (c : ClassDef) (mv : Data) (app : Val) (d : Data) :
    Res (St.bind (modelValidatorsH h p c mv app 0 c.fields d) fun x => St.pure (finishModel x)) (validateModel c mv app d) := by
  unfold validateModel
  refine Res.bind' (modelValidatorsH_res hf p c mv app _ _ _) ?_ ?_
  · intro a ha
    rw [ha]
    exact Res.pure _
  · intro e he; rw [he]

theorem validateFnH_res (hf : h.Steady) (hr : ∀ p ctx b f v, Res (recH p ctx b f v) (rec ctx b f v)) (p : Place) (ctx : Ctx) (c : ClassDef) (mu : Mut) (raw : Data) :
    Res (validateFnH h recH env p ctx c mu raw) (validateFn rec env ctx c mu raw) := by
  unfold validateFnH validateFn
  refine Res.bind' (runMutateH_res hf hr _ ctx c mu raw) ?_ ?_
  · intro m hm
    rw [hm]
    dsimp only
    have hb := importBodyH_res (env := env) hf hr p ctx c m.raw m.errs
    generalize importBody rec env ctx c m.raw m.errs = x at hb ⊢
    have fin : ∀ r : Errs × Data, Res (St.bind (St.bind (modelValidatorsH h p c m.data ctx.app 0 c.fields r.2) fun x => St.pure (finishModel x)) fun x => St.pure (finishBoth r.1 x))
        (finishValidate c ctx m r.1 r.2) := by
      intro r
      unfold finishValidate
      refine Res.bind' (validateModelH_res hf p c m.data ctx.app r.2) ?_ ?_
      · intro a ha; rw [ha]; exact Res.pure _
      · intro e he; rw [he]
    have key : ∀ (y : R (Errs × Data)) (z : R Data), (∀ d, x = .ok d → y = .ok (([] : Errs), d)) → (∀ e, x = .error e → y = catchData e) → z = R.andThen y (fun r => finishValidate c ctx m r.1 r.2) →
        Res (St.bind (St.handle (importBodyH h recH env p ctx c m.raw m.errs) (fun d => St.pure (.ok (([] : Errs), d))) fun e => St.pure (catchData e)) fun r =>
          St.bind (St.bind (modelValidatorsH h p c m.data ctx.app 0 c.fields r.2) fun x => St.pure (finishModel x)) fun x => St.pure (finishBoth r.1 x)) z := by
      intro y z h1 h2 h3
      rw [h3]
      refine Res.bind (Res.handle hb ?_ ?_) fun r _ => fin r
      · intro d hd; rw [h1 d hd]; exact Res.pure _
      · intro e he; rw [h2 e he]; exact Res.pure _
    cases x with
    | ok d => exact key (.ok ([], d)) _ (fun d h => by cases h; rfl) nofun rfl
    | error e =>
      cases e with
      | data es d => exact key (.ok (es, d)) _ nofun (fun e h => by cases h; rfl) rfl
      | _ => exact key (.error _) _ nofun (fun e h => by cases h; rfl) rfl
  · intro e he; rw [he]

theorem listLoopH_res {f : Val → R Val} {fS : Nat → Val → St σ Val} (hf : ∀ i v, Res (fS i v) (f v)) (xs : List Val) : ∀ i, Res (listLoopH fS i xs) (listLoop f i xs) := by
  induction xs with
  | nil => intro i; exact Res.pure _
  | cons x xs ih =>
    intro i
    unfold listLoopH listLoop
    refine Res.handle (hf _ x) ?_ ?_
    · intro y hy
      rw [hy]
      refine Res.bind' (ih _) ?_ ?_
      · intro a ha; rw [ha]; exact Res.pure _
      · intro e he; rw [he]
    · intro e he
      rw [he]
      dsimp only
      split
      · refine Res.bind' (ih _) ?_ ?_
        · intro a ha; rw [ha]; exact Res.pure _
        · intro e he; rw [he]
      · exact Res.pure _

theorem dictLoopH_res {f : Val → R Val} {fS : Nat → Val → St σ Val} (hf : ∀ i v, Res (fS i v) (f v)) (coerce : Key → R Key) (kvs : List (Key × Val)) :
    ∀ i d es, Res (dictLoopH fS coerce i kvs d es) (dictLoop f coerce kvs d es) := by
  induction kvs with
  | nil => intro i d es; exact Res.pure _
  | cons kv kvs ih =>
    obtain ⟨k, x⟩ := kv
    intro i d es
    unfold dictLoopH dictLoop
    have hb : Res (St.bind (fS i x) fun y => St.pure (coerced coerce k y)) (R.andThen (f x) fun y => coerced coerce k y) := Res.bind (hf i x) fun y _ => Res.pure _
    unfold coerced at hb
    have err : ∀ e, R.andThen (f x) (fun y => coerced coerce k y) = .error e →
        Res (St.handle (St.bind (fS i x) fun y => St.pure (coerced coerce k y)) (fun r => dictLoopH fS coerce (i + 1) kvs (d.set r.1 r.2) es) fun e =>
          if e.caught then dictLoopH fS coerce (i + 1) kvs d (es.set k e.tree) else St.pure (.error e))
        (if e.caught then dictLoop f coerce kvs d (es.set k e.tree) else .error e) := by
      intro e he
      refine Res.handle (hb.of_eq he) nofun ?_
      intro e' he'
      cases he'
      split
      · exact ih _ _ _
      · exact Res.pure _
    cases hx : f x with
    | error e => exact err e (by rw [hx]; rfl)
    | ok y =>
      cases hk : coerce k with
      | error e => exact err e (by rw [hx]; simp only [R.andThen, coerced, hk])
      | ok k' =>
        refine Res.handle (r := .ok (k', y)) (hb.of_eq (by rw [hx]; simp only [R.andThen, hk])) ?_ nofun
        intro r hr
        cases hr
        exact ih _ _ _

theorem newInstanceH_res (hf : h.Steady) (hr : ∀ p ctx b f v, Res (recH p ctx b f v) (rec ctx b f v)) (p : Place) (ctx : Ctx) (c : ClassDef) (raw : Data) :
    Res (newInstanceH h recH env p ctx c raw) (newInstance rec env ctx c raw) := by
  unfold newInstanceH newInstance
  refine Res.bind' (r := if ctx.validate then validateFn rec env ctx c (.inst []) raw else importLoop rec env ctx c (.inst []) raw) ?_ ?_ ?_
  · split
    · exact validateFnH_res hf hr _ ctx c _ _
    · exact importLoopH_res hf hr _ ctx c _ _
  · intro a ha; rw [ha]; exact Res.pure _
  · intro e he; rw [he]

theorem modelIntoH_res (hf : h.Steady) (hr : ∀ p ctx b f v, Res (recH p ctx b f v) (rec ctx b f v)) (p : Place) (ctx : Ctx) (c : ClassDef) (raw : Data) (b : Bool) :
    Res (modelIntoH h recH env p ctx c raw b) (modelInto rec env ctx c raw b) := by
  unfold modelIntoH modelInto
  split
  · exact newInstanceH_res hf hr _ ctx c raw
  · refine Res.bind' (importLoopH_res hf hr _ ctx c _ _) ?_ ?_
    · intro a ha; rw [ha]; exact Res.pure _
    · intro e he; rw [he]

theorem modelConvH_res (hf : h.Steady) (hr : ∀ p ctx b f v, Res (recH p ctx b f v) (rec ctx b f v)) (p : Place) (ctx : Ctx) (cls : String) (v : Val) :
    Res (modelConvH h recH env p ctx cls v) (modelConv rec env ctx cls v) := by
  have e : modelConv rec env ctx cls v = R.andThen (modelArgs env cls v) fun r => modelInto rec env ctx r.1 r.2.1 r.2.2 := by
    unfold modelConv modelArgs R.andThen
    cases v with
    | inst c' d => dsimp only; split
                   · cases env.cls c' <;> rfl
                   · rfl
    | dict d => dsimp only; cases env.cls cls <;> rfl
    | _ => rfl
  rw [e]
  exact Res.bind (Res.pure _) fun r _ => modelIntoH_res hf hr _ ctx _ _ _

theorem polyConvH_res (hf : h.Steady) (hr : ∀ p ctx b f v, Res (recH p ctx b f v) (rec ctx b f v)) (p : Place) (ctx : Ctx) (q : PolySpec) (v : Val) :
    Res (polyConvH h recH env p ctx q v) (polyConv rec env ctx q v) := by
  have e : polyConv rec env ctx q v = R.andThen (polyArgs env ctx q v) fun
      | .keep v => .ok v
      | .make c raw => newInstance rec env ctx c raw := by
    unfold polyConv polyArgs R.andThen
    split
    · rfl
    · split
      · rfl
      · cases q.findModel env v with
        | error e => rfl
        | ok k =>
          dsimp only
          cases env.cls k with
          | none => rfl
          | some c =>
            cases v <;> first | rfl | (dsimp only; split <;> rfl)
  rw [e]
  refine Res.bind (Res.pure _) fun r _ => ?_
  cases r with
  | keep v => exact Res.pure _
  | make c raw => exact newInstanceH_res hf hr _ ctx c raw

theorem convertFH_res (hf : h.Steady) (hr : ∀ p ctx b f v, Res (recH p ctx b f v) (rec ctx b f v)) (p : Place) (ctx : Ctx) (f : Field) (v : Val) :
    Res (convertFH h recH env p ctx f v) (convertF rec env ctx f v) := by
  unfold convertFH convertF
  cases f.ty with
  | leaf l => exact hf.native _ _ _ _
  | list inner mn mx =>
    dsimp only
    cases coerceList env v with
    | none => exact Res.pure _
    | some xs =>
      dsimp only
      unfold listConv
      refine Res.bind' (listLoopH_res (fun i v => hr _ ctx false inner v) xs 0) ?_ ?_
      · intro a ha; rw [ha]; exact Res.pure _
      · intro e he; rw [he]
  | dict inner coerce =>
    dsimp only
    cases v <;> first
      | exact Res.pure _
      | (dsimp only
         unfold dictConv
         refine Res.bind' (dictLoopH_res (fun i v => hr _ ctx false inner v) coerce _ _ _ _) ?_ ?_
         · intro a ha; rw [ha]; exact Res.pure _
         · intro e he; rw [he])
  | model cls => exact modelConvH_res hf hr _ ctx cls v
  | poly p => exact polyConvH_res hf hr _ ctx p v

theorem runValidatorsH_res (hf : h.Steady) (p : Place) (app v : Val) (fs : List Validator) : ∀ j, Res (runValidatorsH h p app v j fs) (runValidators app v fs) := by
  induction fs with
  | nil => intro j; exact Res.pure _
  | cons f fs ih =>
    intro j
    unfold runValidatorsH runValidators
    refine Res.handle (hf.check _ f app v) ?_ ?_
    · intro a ha; cases a; rw [ha]; exact ih _
    · intro e he
      rw [he]
      cases e with
      | field k m =>
        cases k with
        | valid =>
          dsimp only
          refine Res.bind' (ih _) ?_ ?_
          · intro a ha; rw [ha]; cases a <;> exact Res.pure _
          · intro e he; rw [he]
        | _ => exact Res.pure _
      | _ => exact Res.pure _

theorem finishValidationH_res (hf : h.Steady) (p : Place) (app v : Val) (fs : List Validator) : Res (finishValidationH h p app v fs) (finishValidation app v fs) := by
  unfold finishValidationH finishValidation
  refine Res.bind' (runValidatorsH_res hf p app v fs 0) ?_ ?_
  · intro a ha; rw [ha]; cases a <;> exact Res.pure _
  · intro e he; rw [he]

theorem fieldConvFH_res (hf : h.Steady) (hr : ∀ p ctx b f v, Res (recH p ctx b f v) (rec ctx b f v)) (p : Place) (ctx : Ctx) (named : Bool) (f : Field) (v : Val) :
    Res (fieldConvFH h recH env p ctx named f v) (fieldConvF rec env ctx named f v) := by
  unfold fieldConvFH fieldConvF
  split
  · exact Res.pure _
  · split
    · exact Res.pure _
    · cases ctx.conv with
      | imp => exact convertFH_res hf hr _ ctx f v
      | val =>
        dsimp only
        unfold validateFH validateF
        cases f.ty.override with
        | some g => exact hf.override _ _ _ _ _
        | none =>
          dsimp only
          split
          · refine Res.bind' (convertFH_res hf hr _ ctx f v) ?_ ?_
            · intro a ha; rw [ha]; exact finishValidationH_res hf _ _ _ _
            · intro e he; rw [he]
          · split
            · refine Res.bind' (convertFH_res hf hr _ ctx f v) ?_ ?_
              · intro a ha; rw [ha]; exact finishValidationH_res hf _ _ _ _
              · intro e he; rw [he]
            · exact finishValidationH_res hf _ _ _ _

theorem fieldConvH_res (hf : h.Steady) (n : Nat) : ∀ p ctx b f v, Res (fieldConvH h env n p ctx b f v) (fieldConv env n ctx b f v) := by
  induction n with
  | zero => intro p ctx b f v; exact Res.pure _
  | succ n ih => intro p ctx b f v; exact fieldConvFH_res hf ih p ctx b f v
end steady
end Verif
