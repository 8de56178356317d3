import Verif.Props.ModelValidators

/-! # C83: calculated fields with a setter in validation; C01 for validation -/
namespace Verif

/-! ## Specification vocabulary -/

/-- What the setter of a calculated field does when its field is given in the input. -/
inductive SetterResult
  /-- it is not called, or fails with `AttributeError` -/
  | nothing
  /-- it sets attributes of the instance -/
  | assigns (asg : Data)
  /-- it raises an error that belongs into the report -/
  | refuses (t : ErrTree)

/-- The setter of `fd` on the input `raw`: called with the converted value if the input has a value under the field's own name and the value
converts. -/
inductive SetterDoes (env : Env) (n : Nat) (ctx : Ctx) (raw : Data) (fd : FieldDef) : SetterResult → Prop
  | absent : (∀ v, Dict.get? raw (.str fd.name) = some v → v = .undef) → SetterDoes env n ctx raw fd .nothing
  | unconverted {v e} : Dict.get? raw (.str fd.name) = some v → v ≠ .undef → fieldConv env n ctx true fd.field v = .error e →
      SetterDoes env n ctx raw fd .nothing
  | assigns {v w f asg} : Dict.get? raw (.str fd.name) = some v → v ≠ .undef → fieldConv env n ctx true fd.field v = .ok w →
      fd.fset = some f → f w = .ok asg → SetterDoes env n ctx raw fd (.assigns asg)
  | refuses {v w f e} : Dict.get? raw (.str fd.name) = some v → v ≠ .undef → fieldConv env n ctx true fd.field v = .ok w →
      fd.fset = some f → f w = .error e → e.caught = true → SetterDoes env n ctx raw fd (.refuses e.tree)
  | noAttribute {v w f} : Dict.get? raw (.str fd.name) = some v → v ≠ .undef → fieldConv env n ctx true fd.field v = .ok w →
      fd.fset = some f → f w = .error (.other "AttributeError") → SetterDoes env n ctx raw fd .nothing

/-- The content of the instance after the setters: assignments in field order, later ones over earlier ones. -/
def afterSetters (content : Data) : List SetterResult → Data
  | [] => content
  | .assigns asg :: rs => afterSetters (content.update asg) rs
  | _ :: rs => afterSetters content rs

/-- The same class with setters that do nothing. -/
def ClassDef.inert (c : ClassDef) : ClassDef :=
  { c with fields := c.fields.map fun fd => { fd with fset := fd.fset.map fun _ => fun _ => .ok [] } }

/-- The settable fields, in order. -/
def settables (c : ClassDef) : List FieldDef := c.fields.filter fun fd => fd.fset.isSome

/-! ## Lemmas: dicts -/

theorem _root_.Verif.Dict.set_same {K V : Type} [DecidableEq K] {d : Dict K V} {k : K} {v : V} (h : Dict.get? d k = some v) : d.set k v = d := by
  induction d with
  | nil => cases h
  | cons x d ih =>
    obtain ⟨k', w⟩ := x
    rw [Dict.get?_cons] at h
    unfold Dict.set
    split at h
    · rename_i e; cases h; rw [if_pos e]
    · rename_i e; rw [if_neg e, ih h]

theorem _root_.Verif.Dict.update_idem {K V : Type} [DecidableEq K] {d e : Dict K V} (he : e.Nodup) : (d.update e).update e = d.update e := by
  have key : ∀ (l : Dict K V) (x : Dict K V), (∀ kv ∈ l, Dict.get? x kv.1 = some kv.2) → x.update l = x := by
    intro l
    induction l with
    | nil => intro x _; rfl
    | cons kv l ih =>
      intro x hx
      rw [Dict.update_cons, Dict.set_same (hx kv (by simp))]
      exact ih x fun kv hkv => hx kv (by simp [hkv])
  refine key e _ ?_
  rintro ⟨k, v⟩ hkv
  rw [Dict.get?_update _ _ he, Dict.get?_of_mem he hkv]
  rfl

/-! ## Lemmas: errors do not influence the data -/

theorem apply_split (a : Acc) (fd : FieldDef) (o : Outcome) : (a.apply fd o).data = (Acc.apply ⟨a.data, []⟩ fd o).data ∧
    ∀ k, (a.apply fd o).errs.get? k = ((Acc.apply ⟨a.data, []⟩ fd o).errs.get? k).or (a.errs.get? k) := by
  cases o with
  | skip => exact ⟨rfl, fun k => rfl⟩
  | store v => exact ⟨rfl, fun k => rfl⟩
  | fail t r =>
    refine ⟨rfl, fun k => ?_⟩
    simp only [Acc.apply, Dict.get?_set]
    split <;> simp

theorem applyAll_split (os : List (FieldDef × Outcome)) (d : Data) (es : Errs) : (applyAll os ⟨d, es⟩).data = (applyAll os ⟨d, []⟩).data ∧
    ∀ k, (applyAll os ⟨d, es⟩).errs.get? k = ((applyAll os ⟨d, []⟩).errs.get? k).or (es.get? k) := by
  induction os generalizing d es with
  | nil => exact ⟨rfl, fun k => rfl⟩
  | cons p os ih =>
    simp only [applyAll]
    obtain ⟨h1, h2⟩ := apply_split ⟨d, es⟩ p.1 p.2
    generalize Acc.apply ⟨d, es⟩ p.1 p.2 = a at *
    generalize Acc.apply ⟨d, []⟩ p.1 p.2 = b at *
    obtain ⟨da, ea⟩ := a
    obtain ⟨db, eb⟩ := b
    simp only at h1 h2
    subst h1
    refine ⟨(ih da ea).1.trans (ih da eb).1.symm, fun k => ?_⟩
    rw [(ih da ea).2, (ih da eb).2, h2]
    cases (applyAll os ⟨da, []⟩).errs.get? k <;> rfl

/-- What a run of `importBody` with errors of setters does, compared to one without. -/
theorem importBody_split (rec : Rec) (env : Env) (ctx : Ctx) (c : ClassDef) (hc : c.WF) (raw : Data) (errs0 : Errs) :
    (Crashed (importBody rec env ctx c raw errs0) → importBody rec env ctx c raw errs0 = importBody rec env ctx c raw []) ∧
    (Crashed (importBody rec env ctx c raw []) → importBody rec env ctx c raw errs0 = importBody rec env ctx c raw []) ∧
    (¬ Crashed (importBody rec env ctx c raw errs0) → dataOf (importBody rec env ctx c raw errs0) = dataOf (importBody rec env ctx c raw []) ∧
      ∀ k, (errorsOf (importBody rec env ctx c raw errs0)).get? k =
        ((errorsOf (importBody rec env ctx c raw [])).get? k).or (errs0.get? k)) := by
  have fin : ∀ (es : Errs) (d : Data), ¬ Crashed (if es.isEmpty then .ok d else .error (.data es d) : R Data) ∧
      dataOf (if es.isEmpty then .ok d else .error (.data es d)) = d ∧ errorsOf (if es.isEmpty then .ok d else .error (.data es d)) = es := by
    intro es d
    split
    · rename_i h
      rw [List.isEmpty_iff] at h
      exact ⟨(by rintro ⟨e, h, -⟩; cases h), rfl, by rw [h]; rfl⟩
    · exact ⟨(by rintro ⟨e, h, h2⟩; cases h; exact h2 _ _ rfl), rfl, rfl⟩
  rw [importBody_eq _ _ _ _ hc, importBody_eq _ _ _ _ hc]
  cases hos : outcomes (fieldRes rec env ctx raw) (c.loopFields ctx) with
  | error e =>
    refine ⟨fun _ => rfl, fun _ => rfl, fun h => ?_⟩
    obtain ⟨fd, _, he⟩ := outcomes_error hos
    have := fieldRes_error he
    exact absurd ⟨e, rfl, by rintro es p rfl; cases this⟩ h
  | ok os =>
    simp only
    obtain ⟨f1, f2, f3⟩ := fin (applyAll os ⟨ctx.trusted, startErrs ctx c raw errs0⟩).errs
      (copySettable c ctx raw (applyAll os ⟨ctx.trusted, startErrs ctx c raw errs0⟩).data)
    obtain ⟨g1, g2, g3⟩ := fin (applyAll os ⟨ctx.trusted, startErrs ctx c raw []⟩).errs
      (copySettable c ctx raw (applyAll os ⟨ctx.trusted, startErrs ctx c raw []⟩).data)
    refine ⟨fun h => absurd h f1, fun h => absurd h g1, fun _ => ⟨?_, fun k => ?_⟩⟩
    · rw [f2, g2, (applyAll_split os _ (startErrs ctx c raw errs0)).1, (applyAll_split os _ (startErrs ctx c raw [])).1]
    · rw [f3, g3, (applyAll_split os _ (startErrs ctx c raw errs0)).2, (applyAll_split os _ (startErrs ctx c raw [])).2, startErrs_get, startErrs_get]
      cases (applyAll os ⟨ctx.trusted, []⟩).errs.get? k with
      | some x => rfl
      | none =>
        by_cases hr : k ∈ rogueKeys ctx c raw
        · simp [hr]
        · simp [hr]

/-! ## Lemmas: model validation -/

/-- The end of a model validation. -/
def finish (es : Errs) (v : R (Errs × Data)) : R Data :=
  match v with
  | .error e => .error e
  | .ok (es2, d') => if (es.update es2).isEmpty then .ok d' else .error (.data (es.update es2) d')

theorem validateFn_eq {rec : Rec} {env : Env} {ctx : Ctx} {c : ClassDef} {mu : Mut} {raw : Data} {m : MutRes}
    (hm : runMutate rec ctx c mu raw = .ok m) (hcr : ¬ Crashed (importBody rec env ctx c m.raw m.errs)) :
    validateFn rec env ctx c mu raw =
      finish (errorsOf (importBody rec env ctx c m.raw m.errs)) (validateModel c m.data ctx.app (dataOf (importBody rec env ctx c m.raw m.errs))) := by
  unfold validateFn
  rw [hm]
  simp only
  generalize importBody rec env ctx c m.raw m.errs = imp at *
  cases imp with
  | ok d => rfl
  | error e =>
    cases e with
    | data es p => rfl
    | _ => exact absurd ⟨_, rfl, by intro _ _ h; cases h⟩ hcr

theorem validateFn_crash {rec : Rec} {env : Env} {ctx : Ctx} {c : ClassDef} {mu : Mut} {raw : Data} {m : MutRes} {e : Exc}
    (hm : runMutate rec ctx c mu raw = .ok m) (hcr : importBody rec env ctx c m.raw m.errs = .error e) (hd : ∀ es p, e ≠ .data es p) :
    validateFn rec env ctx c mu raw = .error e := by
  unfold validateFn
  rw [hm]
  cases e with
  | data es p => exact absurd rfl (hd es p)
  | _ => simp only [hcr]

/-- Two validations that end alike but for further errors `E`. -/
structure PlusErrors (E : Errs) (run base : R Data) : Prop where
  crashed : Crashed run ↔ Crashed base
  same : Crashed run → run = base
  data : dataOf run = dataOf base
  errors : ¬ Crashed run → ∀ k, (errorsOf run).get? k = ((errorsOf base).get? k).or (E.get? k)
  success : Succeeded run ↔ Succeeded base ∧ E = []

theorem not_crashed_finish {es : Errs} {x : Errs × Data} : ¬ Crashed (finish es (.ok x)) := by
  unfold finish
  simp only
  split
  · rintro ⟨e, h, -⟩; cases h
  · rintro ⟨e, h, h2⟩; cases h; exact h2 _ _ rfl

theorem dataOf_finish {es : Errs} {x : Errs × Data} : dataOf (finish es (.ok x)) = x.2 := by
  unfold finish
  simp only
  split <;> rfl

theorem errorsOf_finish {es : Errs} {x : Errs × Data} : errorsOf (finish es (.ok x)) = es.update x.1 := by
  unfold finish
  simp only
  split
  · rename_i h; rw [List.isEmpty_iff] at h; rw [h]; rfl
  · rfl

theorem empty_iff_get (es : Errs) : es = [] ↔ ∀ k, es.get? k = none := by
  constructor
  · rintro rfl k; rfl
  · intro h
    cases es with
    | nil => rfl
    | cons x es => have := h x.1; simp [Dict.get?] at this

theorem succeeded_finish {es : Errs} {x : Errs × Data} : Succeeded (finish es (.ok x)) ↔ es.update x.1 = [] := by
  unfold finish Succeeded
  by_cases h : es.update x.1 = [] <;> simp [h]

theorem get_update_or (a b : Errs) (hb : b.Nodup) (k : Key) : (a.update b).get? k = (b.get? k).or (a.get? k) := by
  rw [Dict.get?_update _ _ hb]

theorem plusErrors_finish {E es es' : Errs} {v : R (Errs × Data)} (hv : ∀ e, v = .error e → ∀ a b, e ≠ .data a b) (hn : ∀ x, v = .ok x → x.1.Nodup)
    (he : ∀ k, es.get? k = (es'.get? k).or (E.get? k)) : PlusErrors E (finish es v) (finish es' v) := by
  cases v with
  | error e =>
    have hc : Crashed (finish es (.error e)) := ⟨e, rfl, hv e rfl⟩
    exact ⟨Iff.rfl, fun _ => rfl, rfl, fun h => absurd hc h, ⟨(by rintro ⟨d, h⟩; cases h), (by rintro ⟨⟨d, h⟩, -⟩; cases h)⟩⟩
  | ok x =>
    have hx := hn x rfl
    have hget : ∀ k, (es.update x.1).get? k = ((es'.update x.1).get? k).or (E.get? k) := by
      intro k
      rw [get_update_or _ _ hx, get_update_or _ _ hx, he]
      cases x.1.get? k <;> rfl
    refine ⟨⟨fun h => absurd h not_crashed_finish, fun h => absurd h not_crashed_finish⟩, fun h => absurd h not_crashed_finish, ?_, ?_, ?_⟩
    · rw [dataOf_finish, dataOf_finish]
    · intro _ k
      rw [errorsOf_finish, errorsOf_finish, hget]
    · rw [succeeded_finish, succeeded_finish, empty_iff_get, empty_iff_get, empty_iff_get]
      constructor
      · intro h
        refine ⟨fun k => ?_, fun k => ?_⟩
        all_goals
          have := h k
          rw [hget] at this
          cases h1 : (es'.update x.1).get? k <;> rw [h1] at this <;> simp_all
      · rintro ⟨h1, h2⟩ k
        rw [hget, h1, h2]; rfl

/-! ## Lemmas: setters -/

/-- The errors of the setters. -/
def setterErrors : List FieldDef → List SetterResult → Errs → Errs
  | fd :: fds, .refuses t :: rs, es => setterErrors fds rs (es.set (.str fd.extName) t)
  | _ :: fds, _ :: rs, es => setterErrors fds rs es
  | _, _, es => es

/-- `inert` for one field. -/
def FieldDef.inert (fd : FieldDef) : FieldDef := { fd with fset := fd.fset.map fun _ => fun _ => .ok [] }

theorem rawValue_some {raw : Data} {s : String} {v : Val} (h : Dict.get? raw (.str s) = some v) : rawValue raw s = v := by
  unfold rawValue; rw [h]; rfl

theorem rawValue_absent {raw : Data} {s : String} (h : ∀ v, Dict.get? raw (.str s) = some v → v = .undef) : rawValue raw s = .undef := by
  unfold rawValue
  cases hg : Dict.get? raw (.str s) with
  | none => rfl
  | some v => rw [h v hg]; rfl

theorem isUndef_false {v : Val} (h : v ≠ .undef) : v.isUndef = false := by
  cases hu : v.isUndef with
  | false => rfl
  | true => exact absurd ((Val.isUndef_iff _).1 hu) h

/-- The setters of a list of fields, compared to inert ones. -/
theorem runSetters_split (env : Env) (n : Nat) (ctx : Ctx) (raw : Data) (onInst : Bool) (fds : List FieldDef) (rs : List SetterResult)
    (h : All2 (SetterDoes env n ctx raw) fds rs) (hs : ∀ fd ∈ fds, fd.fset.isSome = true) (hx : (fds.map (·.extName)).Nodup)
    (es es' : Errs) (E : Errs) (d d' : Data) (he : ∀ k, es.get? k = (es'.get? k).or (E.get? k))
    (hE : ∀ fd ∈ fds, E.get? (.str fd.extName) = none) (hI : ∀ fd ∈ fds, es'.get? (.str fd.extName) = none) :
    (∀ e, runSetters (fieldConv env n) ctx raw onInst (fds.map FieldDef.inert) es' d' = .error e →
      runSetters (fieldConv env n) ctx raw onInst fds es d = .error e) ∧
    (∀ r', runSetters (fieldConv env n) ctx raw onInst (fds.map FieldDef.inert) es' d' = .ok r' →
      ∃ r, runSetters (fieldConv env n) ctx raw onInst fds es d = .ok r ∧ r'.2 = d' ∧ r.2 = (if onInst then afterSetters d rs else d) ∧
        ∀ k, r.1.get? k = (r'.1.get? k).or ((setterErrors fds rs E).get? k)) := by
  induction h generalizing es es' E d d' with
  | nil =>
    simp only [List.map_nil, runSetters]
    refine ⟨(by intro e h; cases h), fun r' h => ?_⟩
    cases h
    refine ⟨_, rfl, rfl, ?_, ?_⟩
    · cases onInst <;> rfl
    · exact he
  | @cons fd r fds rs hd _ ih =>
    obtain ⟨f, hf⟩ := Option.isSome_iff_exists.1 (hs fd (by simp))
    have hs' : ∀ fd ∈ fds, fd.fset.isSome = true := fun fd h => hs fd (by simp [h])
    simp only [List.map_cons, List.nodup_cons] at hx
    have hE' : ∀ fd ∈ fds, E.get? (.str fd.extName) = none := fun fd h => hE fd (by simp [h])
    have hI' : ∀ fd ∈ fds, es'.get? (.str fd.extName) = none := fun fd h => hI fd (by simp [h])
    have hi : (FieldDef.inert fd).fset = some fun _ => .ok [] := by simp [FieldDef.inert, hf]
    simp only [List.map_cons, runSetters]
    rw [show (FieldDef.inert fd).name = fd.name from rfl, show (FieldDef.inert fd).field = fd.field from rfl,
      show (FieldDef.inert fd).extName = fd.extName from rfl, hi, hf]
    simp only
    cases hd with
    | absent h0 =>
      rw [rawValue_absent h0]
      simp only [Val.isUndef, if_true]
      exact ih hs' hx.2 es es' E d d' he hE' hI'
    | unconverted h1 h2 h3 =>
      rw [rawValue_some h1, isUndef_false h2, h3]
      simp only [Bool.false_eq_true, if_false]
      rename_i e
      cases hc : e.caught with
      | true =>
        simp only [if_true]
        refine ih hs' hx.2 _ _ E d d' (fun k => ?_) hE' (fun fd' h' => ?_)
        · rw [Dict.get?_set, Dict.get?_set, he]
          split <;> rfl
        · rw [Dict.get?_set_ne, hI' fd' h']
          intro e; injection e with e
          exact hx.1 (List.mem_map.2 ⟨fd', h', e.symm⟩)
      | false =>
        simp only [Bool.false_eq_true, if_false]
        split
        · exact ih hs' hx.2 es es' E d d' he hE' hI'
        · exact ⟨fun e h => h, (by intro r h; cases h)⟩
    | @assigns _ w f' asg h1 h2 h3 h4 h5 =>
      rw [hf] at h4; cases h4
      rw [rawValue_some h1, isUndef_false h2, h3]
      simp only [Bool.false_eq_true, if_false, h5]
      have hu : (if onInst then d'.update [] else d') = d' := by cases onInst <;> rfl
      rw [hu]
      obtain ⟨i1, i2⟩ := ih hs' hx.2 es es' E (if onInst then d.update asg else d) d' he hE' hI'
      refine ⟨i1, fun r' hr' => ?_⟩
      obtain ⟨r, j1, j2, j3, j4⟩ := i2 r' hr'
      refine ⟨r, j1, j2, ?_, j4⟩
      rw [j3]
      cases onInst <;> rfl
    | @refuses _ w f' e h1 h2 h3 h4 h5 h6 =>
      rw [hf] at h4; cases h4
      rw [rawValue_some h1, isUndef_false h2, h3]
      simp only [Bool.false_eq_true, if_false, h5, h6, if_true]
      have hu : (if onInst then d'.update [] else d') = d' := by cases onInst <;> rfl
      rw [hu]
      refine ih hs' hx.2 _ es' (E.set (.str fd.extName) e.tree) d d' (fun k => ?_) ?_ hI'
      · rw [Dict.get?_set, Dict.get?_set, he]
        split
        · rename_i e'; subst e'; rw [hI fd (by simp)]; rfl
        · rfl
      · intro fd' h'
        rw [Dict.get?_set_ne, hE' fd' h']
        intro e; injection e with e
        exact hx.1 (List.mem_map.2 ⟨fd', h', e.symm⟩)
    | @noAttribute _ w f' h1 h2 h3 h4 h5 =>
      rw [hf] at h4; cases h4
      rw [rawValue_some h1, isUndef_false h2, h3]
      simp only [Bool.false_eq_true, if_false, h5, Exc.caught]
      have hu : (if onInst then d'.update [] else d') = d' := by cases onInst <;> rfl
      rw [hu]
      exact ih hs' hx.2 es es' E d d' he hE' hI'

/-! ## Lemmas: the class with inert setters -/

theorem inert_fields (c : ClassDef) : c.inert.fields = c.fields.map FieldDef.inert := rfl

theorem inert_settable (c : ClassDef) : c.inert.settable = c.settable.map FieldDef.inert := by
  unfold ClassDef.settable
  rw [inert_fields, List.filter_map]
  congr 1
  refine List.filter_congr fun fd _ => ?_
  simp [FieldDef.inert]

theorem inert_view (c : ClassDef) (d : Data) : c.inert.view d = c.view d := by
  unfold ClassDef.view
  rw [inert_fields, List.filterMap_map]
  congr 1
  funext fd
  simp [FieldDef.inert]

theorem inert_rogue (ctx : Ctx) (c : ClassDef) (raw : Data) : rogueKeys ctx c.inert raw = rogueKeys ctx c raw := by
  have : acceptedKeys ctx.mapping c.inert = acceptedKeys ctx.mapping c := by
    unfold acceptedKeys
    rw [inert_fields, List.flatMap_map]
    rfl
  unfold rogueKeys
  rw [this]

theorem inert_importFields (rec : Rec) (env : Env) (ctx : Ctx) (raw : Data) (fds : List FieldDef) (a : Acc) :
    importFields rec env ctx raw (fds.map FieldDef.inert) a = importFields rec env ctx raw fds a := by
  induction fds generalizing a with
  | nil => rfl
  | cons fd fds ih =>
    simp only [List.map_cons, importFields]
    rw [show fieldOutcome rec env ctx raw (a.data.has (.str fd.inert.name)) fd.inert = fieldOutcome rec env ctx raw (a.data.has (.str fd.name)) fd from rfl]
    cases fieldOutcome rec env ctx raw (a.data.has (.str fd.name)) fd with
    | error e => rfl
    | ok o =>
      simp only
      rw [show a.apply fd.inert o = a.apply fd o by cases o <;> rfl]
      exact ih _

theorem inert_importBody (rec : Rec) (env : Env) (ctx : Ctx) (hv : ctx.validate = true) (c : ClassDef) (raw : Data) (errs0 : Errs) :
    importBody rec env ctx c.inert raw errs0 = importBody rec env ctx c raw errs0 := by
  unfold importBody
  rw [inert_rogue]
  have : c.inert.loopFields ctx = (c.loopFields ctx).map FieldDef.inert := by
    unfold ClassDef.loopFields; rw [hv]; rfl
  rw [this]
  simp only [inert_importFields]
  have h2 : ∀ d, copySettable c.inert ctx raw d = copySettable c ctx raw d := by
    intro d; unfold copySettable; rw [hv]; rfl
  simp only [h2]

theorem inert_modelValidators (c : ClassDef) (mv : Data) (app : Val) (fds : List FieldDef) (d : Data) :
    modelValidators c.inert mv app (fds.map FieldDef.inert) d = modelValidators c mv app fds d := by
  induction fds generalizing d with
  | nil => rfl
  | cons fd fds ih =>
    simp only [List.map_cons, modelValidators]
    rw [show c.inert.validators = c.validators from rfl, show fd.inert.name = fd.name from rfl, show fd.inert.extName = fd.extName from rfl]
    simp only [ih]

theorem inert_validateModel (c : ClassDef) (mv : Data) (app : Val) (d : Data) : validateModel c.inert mv app d = validateModel c mv app d := by
  unfold validateModel
  rw [inert_fields, inert_modelValidators]

theorem inert_wf {c : ClassDef} (hc : c.WF) : c.inert.WF := by
  unfold ClassDef.WF at *
  rw [inert_fields, List.map_map]
  exact hc

theorem importBody_success {rec : Rec} {env : Env} {ctx : Ctx} {c : ClassDef} (hc : c.WF) {raw : Data} {errs0 : Errs}
    (h : ¬ Crashed (importBody rec env ctx c raw errs0)) :
    Succeeded (importBody rec env ctx c raw errs0) ↔ ∀ k, (errorsOf (importBody rec env ctx c raw errs0)).get? k = none := by
  rw [← empty_iff_get]
  rw [importBody_eq _ _ _ _ hc] at h ⊢
  cases hos : outcomes (fieldRes rec env ctx raw) (c.loopFields ctx) with
  | error e =>
    obtain ⟨fd, _, he⟩ := outcomes_error hos
    have := fieldRes_error he
    rw [hos] at h
    exact absurd ⟨e, rfl, by rintro es p rfl; cases this⟩ h
  | ok os =>
    simp only
    generalize (applyAll os ⟨ctx.trusted, startErrs ctx c raw errs0⟩).errs = es
    cases es with
    | nil => simp [Succeeded, errorsOf]
    | cons x es => simp [Succeeded, errorsOf]

theorem plusErrors_body (rec : Rec) (env : Env) (ctx : Ctx) (c : ClassDef) (hc : c.WF) (raw : Data) (es es' E : Errs)
    (he : ∀ k, es.get? k = (es'.get? k).or (E.get? k)) : PlusErrors E (importBody rec env ctx c raw es) (importBody rec env ctx c raw es') := by
  obtain ⟨a1, a2, a3⟩ := importBody_split rec env ctx c hc raw es
  obtain ⟨b1, b2, b3⟩ := importBody_split rec env ctx c hc raw es'
  have hcr : Crashed (importBody rec env ctx c raw es) ↔ Crashed (importBody rec env ctx c raw es') := by
    constructor
    · intro h
      have e := a1 h
      rw [e] at h
      rw [b2 h]; exact h
    · intro h
      have e := b1 h
      rw [e] at h
      rw [a2 h]; exact h
  have hsame : Crashed (importBody rec env ctx c raw es) → importBody rec env ctx c raw es = importBody rec env ctx c raw es' :=
    fun h => (a1 h).trans (b1 (hcr.1 h)).symm
  have herr : ¬ Crashed (importBody rec env ctx c raw es) → ∀ k, (errorsOf (importBody rec env ctx c raw es)).get? k =
      ((errorsOf (importBody rec env ctx c raw es')).get? k).or (E.get? k) := by
    intro h k
    rw [(a3 h).2, (b3 (fun h' => h (hcr.2 h'))).2, he]
    cases (errorsOf (importBody rec env ctx c raw [])).get? k <;> rfl
  refine ⟨hcr, hsame, ?_, herr, ?_⟩
  · by_cases h : Crashed (importBody rec env ctx c raw es)
    · rw [hsame h]
    · rw [(a3 h).1, (b3 (fun h' => h (hcr.2 h'))).1]
  · by_cases h : Crashed (importBody rec env ctx c raw es)
    · have h' := hcr.1 h
      obtain ⟨e, h1, -⟩ := h
      obtain ⟨e', h1', -⟩ := h'
      rw [h1, h1']
      exact ⟨(by rintro ⟨d, h⟩; cases h), (by rintro ⟨⟨d, h⟩, -⟩; cases h)⟩
    · rw [importBody_success hc h, importBody_success hc (fun h' => h (hcr.2 h')), empty_iff_get]
      constructor
      · intro h0
        refine ⟨fun k => ?_, fun k => ?_⟩
        all_goals
          have := h0 k
          rw [herr h] at this
          cases h1 : (errorsOf (importBody rec env ctx c raw es')).get? k <;> rw [h1] at this <;> simp_all
      · rintro ⟨h1, h2⟩ k
        rw [herr h, h1, h2]; rfl

/-- The two runs, given what `runMutate` did. -/
theorem plusErrors_of_mutate {env : Env} {n : Nat} {ctx : Ctx} {c : ClassDef} (hc : c.WF) (hv : ctx.validate = true) {mu mu' : Mut} {raw raw' : Data}
    {E : Errs}
    (h1 : ∀ e, runMutate (fieldConv env n) ctx c.inert mu' raw' = .error e → runMutate (fieldConv env n) ctx c mu raw = .error e)
    (h2 : ∀ m', runMutate (fieldConv env n) ctx c.inert mu' raw' = .ok m' → ∃ m, runMutate (fieldConv env n) ctx c mu raw = .ok m ∧
      m.data = m'.data ∧ m.raw = m'.raw ∧ ∀ k, m.errs.get? k = (m'.errs.get? k).or (E.get? k))
    (hnd : ∀ e, runMutate (fieldConv env n) ctx c.inert mu' raw' = .error e → ∀ es p, e ≠ .data es p)
    (entry : Env → Nat → Ctx → ClassDef → Mut → Data → R Data) (he : entry = runImport ∨ entry = runValidate) :
    PlusErrors E (entry env n ctx c mu raw) (entry env n ctx c.inert mu' raw') := by
  cases hm' : runMutate (fieldConv env n) ctx c.inert mu' raw' with
  | error e =>
    have hm := h1 e hm'
    have e1 : entry env n ctx c mu raw = .error e := by
      rcases he with rfl | rfl
      · simp only [runImport, importLoop, hv, if_true, hm]
      · simp only [runValidate, validateFn, hm]
    have e2 : entry env n ctx c.inert mu' raw' = .error e := by
      rcases he with rfl | rfl
      · simp only [runImport, importLoop, hv, if_true, hm']
      · simp only [runValidate, validateFn, hm']
    rw [e1, e2]
    have hcr : Crashed (.error e : R Data) := ⟨e, rfl, hnd e hm'⟩
    exact ⟨Iff.rfl, fun _ => rfl, rfl, fun h => absurd hcr h, ⟨(by rintro ⟨d, h⟩; cases h), (by rintro ⟨⟨d, h⟩, -⟩; cases h)⟩⟩
  | ok m' =>
    obtain ⟨m, hm, hd, hr, hee⟩ := h2 m' hm'
    obtain ⟨md, me, mr⟩ := m
    obtain ⟨md', me', mr'⟩ := m'
    simp only at hd hr hee
    subst hd hr
    have hbody := plusErrors_body (fieldConv env n) env ctx c hc mr md md' E hee
    rcases he with rfl | rfl
    · simp only [runImport, importLoop, hv, if_true, hm, hm', inert_importBody _ _ _ hv]
      exact hbody
    · unfold runValidate
      by_cases hcr : Crashed (importBody (fieldConv env n) env ctx c mr md)
      · obtain ⟨e, h3, h4⟩ := id hcr
        have h5 := hbody.same hcr
        rw [validateFn_crash hm h3 h4, validateFn_crash (e := e) hm' (by rw [inert_importBody _ _ _ hv, ← h5]; exact h3) h4]
        have hcr : Crashed (.error e : R Data) := ⟨e, rfl, h4⟩
        exact ⟨Iff.rfl, fun _ => rfl, rfl, fun h => absurd hcr h, ⟨(by rintro ⟨d, h⟩; cases h), (by rintro ⟨⟨d, h⟩, -⟩; cases h)⟩⟩
      · rw [validateFn_eq hm hcr, validateFn_eq hm' (by
          rw [inert_importBody _ _ _ hv]; exact fun h => hcr (hbody.crashed.2 h)), inert_importBody _ _ _ hv, inert_validateModel]
        simp only
        rw [hbody.data]
        refine plusErrors_finish ?_ (fun x h => validateModel_nodup h) (hbody.errors hcr)
        rintro e h a b rfl
        exact validateModel_noData _ _ h

theorem setterErrors_get (fds : List FieldDef) (rs : List SetterResult) (hl : fds.length = rs.length) (hx : (fds.map (·.extName)).Nodup) (E : Errs)
    (hE : ∀ fd ∈ fds, E.get? (.str fd.extName) = none) (k : Key) (t : ErrTree) :
    (setterErrors fds rs E).get? k = some t ↔ (∃ fd, (fd, SetterResult.refuses t) ∈ fds.zip rs ∧ k = .str fd.extName) ∨ E.get? k = some t := by
  induction fds generalizing rs E with
  | nil => cases rs <;> simp [setterErrors]
  | cons fd fds ih =>
    cases rs with
    | nil => cases hl
    | cons r rs =>
      simp only [List.length_cons, Nat.add_right_cancel_iff] at hl
      simp only [List.map_cons, List.nodup_cons] at hx
      have hE' : ∀ fd ∈ fds, E.get? (.str fd.extName) = none := fun fd h => hE fd (by simp [h])
      have skip : (∀ t, r ≠ .refuses t) → ((setterErrors fds rs E).get? k = some t ↔
          (∃ fd', (fd', SetterResult.refuses t) ∈ (fd :: fds).zip (r :: rs) ∧ k = .str fd'.extName) ∨ E.get? k = some t) := by
        intro hr
        rw [ih rs hl hx.2 E hE']
        have hr : ¬ SetterResult.refuses t = r := fun h => hr t h.symm
        simp [List.zip_cons_cons, List.mem_cons, Prod.mk.injEq, hr]
      cases r with
      | nothing => exact skip (by intro t h; cases h)
      | assigns a => exact skip (by intro t h; cases h)
      | refuses t' =>
        simp only [setterErrors]
        rw [ih rs hl hx.2 _ (by
          intro fd' h'
          rw [Dict.get?_set_ne, hE' fd' h']
          intro e; injection e with e
          exact hx.1 (List.mem_map.2 ⟨fd', h', e.symm⟩))]
        rw [Dict.get?_set]
        simp only [List.zip_cons_cons, List.mem_cons, Prod.mk.injEq]
        constructor
        · rintro (⟨fd', h1, h2⟩ | h1)
          · exact Or.inl ⟨fd', Or.inr h1, h2⟩
          · split at h1
            · rename_i hk; cases h1; exact Or.inl ⟨fd, Or.inl ⟨rfl, rfl⟩, hk.symm⟩
            · exact Or.inr h1
        · rintro (⟨fd', h1 | h1, h2⟩ | h1)
          · obtain ⟨rfl, h1⟩ := h1
            cases h1
            right; rw [if_pos h2.symm]
          · exact Or.inl ⟨fd', h1, h2⟩
          · right
            rw [if_neg]
            · exact h1
            · intro e
              rw [← e, hE fd (by simp)] at h1
              cases h1

theorem all2_length {α β : Type} {P : α → β → Prop} {as : List α} {bs : List β} (h : All2 P as bs) : as.length = bs.length := by
  induction h with
  | nil => rfl
  | cons _ _ ih => simp [ih]

theorem settable_distinct {c : ClassDef} (hx : DistinctExt c) : ((settables c).map (·.extName)).Nodup :=
  List.Nodup.sublist (List.Sublist.map _ List.filter_sublist) hx

theorem view_settable {c : ClassDef} (hc : c.WF) {fd : FieldDef} (h : fd ∈ settables c) (d : Data) : Key.str fd.name ∉ Dict.keys (c.view d) := by
  intro hk
  unfold settables at h
  rw [List.mem_filter] at h
  unfold ClassDef.view Dict.keys at hk
  obtain ⟨kv, hkv, e⟩ := List.mem_map.1 hk
  obtain ⟨fd', h1, h2⟩ := List.mem_filterMap.1 hkv
  split at h2
  · cases h2
  · rename_i hs
    have : fd'.name = fd.name := by
      split at h2
      · cases h2
      · split at h2
        · cases h2; injection e
        · obtain ⟨w, -, h3⟩ := Option.map_eq_some_iff.1 h2
          subst h3; injection e
    have : fd' = fd := name_inj hc h1 h.1 this
    subst this
    exact hs h.2

/-! ## C83 -/

/-- **C83.** Validating input for a model instance, with calculated fields that have setters: the setters run first, in field order, on the converted
values of those settable fields that the input gives under their own names; then validation goes on as it would for a class whose setters do
nothing, on an instance with the attributes they assigned, and with these attributes in the input in place of what the input had for them.  The
errors of setters are reported in addition, under the external names of their fields. -/
theorem C83_setters (env : Env) (n : Nat) (ctx : Ctx) (c : ClassDef) (content raw : Data) (hc : c.WF) (hx : DistinctExt c)
    (hv : ctx.validate = true) (rs : List SetterResult) (hrs : All2 (SetterDoes env n ctx raw) (settables c) rs)
    (entry : Env → Nat → Ctx → ClassDef → Mut → Data → R Data) (he : entry = runImport ∨ entry = runValidate)
    (run : R Data) (hrun : run = entry env n ctx c (.inst content) raw)
    (after : Data) (hafter : after = afterSetters content rs)
    (base : R Data) (hbase : base = entry env n ctx c.inert (.inst after) (raw.update (c.view after))) :
    (Crashed run ↔ Crashed base) ∧ (Crashed run → run = base) ∧ dataOf run = dataOf base ∧
    (Succeeded run ↔ Succeeded base ∧ ∀ t, .refuses t ∉ rs) ∧
    (¬ Crashed run → ∀ k t, (errorsOf run).get? k = some t ↔ (errorsOf base).get? k = some t ∨
      (errorsOf base).get? k = none ∧ ∃ fd, (fd, SetterResult.refuses t) ∈ (settables c).zip rs ∧ k = .str fd.extName) := by
  have hset : ∀ fd ∈ settables c, fd.fset.isSome = true := by
    intro fd h; unfold settables at h; exact (List.mem_filter.1 h).2
  have hsx := settable_distinct hx
  have hraw : ∀ (fd : FieldDef), fd ∈ c.inert.settable → Dict.get? (raw.update (c.view after)) (.str fd.name) = Dict.get? raw (.str fd.name) := by
    intro fd h
    rw [inert_settable] at h
    obtain ⟨fd', h', rfl⟩ := List.mem_map.1 h
    exact Dict.get?_update_none _ _ (view_settable hc h' after)
  obtain ⟨s1, s2⟩ := runSetters_split env n ctx raw true (settables c) rs hrs hset hsx [] [] [] content after (fun _ => rfl) (fun _ _ => rfl) (fun _ _ => rfl)
  have hP : PlusErrors (setterErrors (settables c) rs []) run base := by
    rw [hrun, hbase]
    have hmu : runMutate (fieldConv env n) ctx c.inert (.inst after) (raw.update (c.view after)) =
        (match runSetters (fieldConv env n) ctx raw true ((settables c).map FieldDef.inert) [] after with
        | .error e => .error e
        | .ok (es, d') => .ok ⟨es, d', (raw.update (c.view after)).update (c.view d')⟩) := by
      simp only [runMutate]
      rw [runSetters_congr hraw, inert_settable]
      simp only [inert_view]
      rfl
    refine plusErrors_of_mutate hc hv ?_ ?_ ?_ entry he
    · intro e h
      rw [hmu] at h
      cases hs : runSetters (fieldConv env n) ctx raw true ((settables c).map FieldDef.inert) [] after with
      | ok r => rw [hs] at h; cases h
      | error e' =>
        rw [hs] at h; cases h
        have := s1 e hs
        simp only [runMutate]
        rw [show c.settable = settables c from rfl, this]
    · intro m' h
      rw [hmu] at h
      cases hs : runSetters (fieldConv env n) ctx raw true ((settables c).map FieldDef.inert) [] after with
      | error e' => rw [hs] at h; cases h
      | ok r' =>
        rw [hs] at h; cases h
        obtain ⟨r, t1, t2, t3, t4⟩ := s2 r' hs
        refine ⟨⟨r.1, r.2, raw.update (c.view r.2)⟩, ?_, ?_, ?_, t4⟩
        · simp only [runMutate]
          rw [show c.settable = settables c from rfl, t1]
        · simp only; rw [t2, t3, hafter]; rfl
        · simp only; rw [t2, t3, ← hafter]; exact (Dict.update_idem (view_nodup hc _)).symm
    · intro e h
      rw [hmu] at h
      cases hs : runSetters (fieldConv env n) ctx raw true ((settables c).map FieldDef.inert) [] after with
      | ok r => rw [hs] at h; cases h
      | error e' => rw [hs] at h; cases h; rintro a b rfl; exact runSetters_noData _ _ hs
  have hlen := all2_length hrs
  have hget := fun k t => setterErrors_get (settables c) rs hlen hsx [] (fun _ _ => rfl) k t
  refine ⟨hP.crashed, hP.same, hP.data, ?_, ?_⟩
  · rw [hP.success, empty_iff_get]
    refine and_congr_right fun _ => ?_
    constructor
    · intro h t ht
      obtain ⟨i, hi, hi'⟩ := List.mem_iff_getElem.1 ht
      have hi2 : i < (settables c).length := by rw [hlen]; exact hi
      have hm : ((settables c)[i], SetterResult.refuses t) ∈ (settables c).zip rs := by
        rw [List.mem_iff_getElem]
        exact ⟨i, by simp [hlen, hi], by simp [hi']⟩
      have := (hget (.str (settables c)[i].extName) t).2 (Or.inl ⟨_, hm, rfl⟩)
      rw [h] at this
      cases this
    · intro h k
      cases hg : (setterErrors (settables c) rs []).get? k with
      | none => rfl
      | some t =>
        rcases (hget k t).1 hg with ⟨fd, h1, -⟩ | h1
        · exact absurd (List.of_mem_zip h1).2 (h t)
        · cases h1
  · intro hcr k t
    rw [hP.errors hcr]
    cases hb : (errorsOf base).get? k with
    | some x => simp
    | none =>
      simp only [Option.none_or, reduceCtorEq, false_or, true_and]
      rw [hget]
      simp

/-- **C83** (plain dicts): where the data are a plain dict and not an instance (`validate(Model, data)` of the functional interface, nested models
without objects), the assignments of setters have no effect, but their errors are reported. -/
theorem C83_plain_dict (env : Env) (n : Nat) (ctx : Ctx) (c : ClassDef) (raw : Data) (hc : c.WF) (hx : DistinctExt c)
    (hv : ctx.validate = true) (rs : List SetterResult) (hrs : All2 (SetterDoes env n ctx raw) (settables c) rs)
    (entry : Env → Nat → Ctx → ClassDef → Mut → Data → R Data) (he : entry = runImport ∨ entry = runValidate)
    (run : R Data) (hrun : run = entry env n ctx c (.same false) raw)
    (base : R Data) (hbase : base = entry env n ctx c.inert (.same false) raw) :
    (Crashed run ↔ Crashed base) ∧ (Crashed run → run = base) ∧ dataOf run = dataOf base ∧
    (¬ Crashed run → ∀ k t, (errorsOf run).get? k = some t ↔ (errorsOf base).get? k = some t ∨
      (errorsOf base).get? k = none ∧ ∃ fd, (fd, SetterResult.refuses t) ∈ (settables c).zip rs ∧ k = .str fd.extName) := by
  have hset : ∀ fd ∈ settables c, fd.fset.isSome = true := by
    intro fd h; unfold settables at h; exact (List.mem_filter.1 h).2
  have hsx := settable_distinct hx
  obtain ⟨s1, s2⟩ := runSetters_split env n ctx raw false (settables c) rs hrs hset hsx [] [] [] [] [] (fun _ => rfl) (fun _ _ => rfl) (fun _ _ => rfl)
  have hP : PlusErrors (setterErrors (settables c) rs []) run base := by
    rw [hrun, hbase]
    have hmu : runMutate (fieldConv env n) ctx c.inert (.same false) raw =
        (match runSetters (fieldConv env n) ctx raw false ((settables c).map FieldDef.inert) [] [] with
        | .error e => .error e
        | .ok (es, _) => .ok ⟨es, raw, raw⟩) := by
      simp only [runMutate]
      rw [inert_settable]
      rfl
    refine plusErrors_of_mutate hc hv ?_ ?_ ?_ entry he
    · intro e h
      rw [hmu] at h
      cases hs : runSetters (fieldConv env n) ctx raw false ((settables c).map FieldDef.inert) [] [] with
      | ok r => rw [hs] at h; cases h
      | error e' =>
        rw [hs] at h; cases h
        simp only [runMutate]
        rw [show c.settable = settables c from rfl, s1 e hs]
    · intro m' h
      rw [hmu] at h
      cases hs : runSetters (fieldConv env n) ctx raw false ((settables c).map FieldDef.inert) [] [] with
      | error e' => rw [hs] at h; cases h
      | ok r' =>
        rw [hs] at h; cases h
        obtain ⟨r, t1, t2, t3, t4⟩ := s2 r' hs
        refine ⟨⟨r.1, raw, raw⟩, ?_, rfl, rfl, t4⟩
        simp only [runMutate]
        rw [show c.settable = settables c from rfl, t1]
        rfl
    · intro e h
      rw [hmu] at h
      cases hs : runSetters (fieldConv env n) ctx raw false ((settables c).map FieldDef.inert) [] [] with
      | ok r => rw [hs] at h; cases h
      | error e' => rw [hs] at h; cases h; rintro a b rfl; exact runSetters_noData _ _ hs
  have hlen := all2_length hrs
  have hget := fun k t => setterErrors_get (settables c) rs hlen hsx [] (fun _ _ => rfl) k t
  refine ⟨hP.crashed, hP.same, hP.data, ?_⟩
  intro hcr k t
  rw [hP.errors hcr]
  cases hb : (errorsOf base).get? k with
  | some x => simp
  | none =>
    simp only [Option.none_or, reduceCtorEq, false_or, true_and]
    rw [hget]
    simp

/-- What `_mutate` reports. -/
theorem runSetters_reports {rec : Rec} {ctx : Ctx} {raw : Data} {onInst : Bool} {fds : List FieldDef} {es : Errs} {d : Data} {r : Errs × Data}
    (h : runSetters rec ctx raw onInst fds es d = .ok r) :
    (∀ k ∈ es.keys, k ∈ r.1.keys) ∧
    (∀ fd ∈ fds, ∀ v e, Dict.get? raw (.str fd.name) = some v → v ≠ .undef → rec ctx true fd.field v = .error e → e.caught = true →
      Key.str fd.extName ∈ r.1.keys) := by
  induction fds generalizing es d with
  | nil => cases h; exact ⟨fun _ h => h, by simp⟩
  | cons fd fds ih =>
    simp only [runSetters] at h
    have step : ∀ es' d', (∀ k ∈ es.keys, k ∈ Dict.keys es') →
        (∀ v e, Dict.get? raw (.str fd.name) = some v → v ≠ .undef → rec ctx true fd.field v = .error e → e.caught = true →
          Key.str fd.extName ∈ Dict.keys es') → runSetters rec ctx raw onInst fds es' d' = .ok r →
        (∀ k ∈ es.keys, k ∈ r.1.keys) ∧
        (∀ fd' ∈ fd :: fds, ∀ v e, Dict.get? raw (.str fd'.name) = some v → v ≠ .undef → rec ctx true fd'.field v = .error e → e.caught = true →
          Key.str fd'.extName ∈ r.1.keys) := by
      intro es' d' h1 h2 h3
      obtain ⟨i1, i2⟩ := ih h3
      refine ⟨fun k hk => i1 k (h1 k hk), fun fd' hfd' v e a1 a2 a3 a4 => ?_⟩
      rcases List.mem_cons.1 hfd' with rfl | hm
      · exact i1 _ (h2 v e a1 a2 a3 a4)
      · exact i2 fd' hm v e a1 a2 a3 a4
    cases hu : (rawValue raw fd.name).isUndef with
    | true =>
      rw [hu] at h
      refine step es d (fun _ h => h) (fun v e a1 a2 => ?_) h
      rw [rawValue_some a1, isUndef_false a2] at hu
      cases hu
    | false =>
      rw [hu] at h
      simp only [Bool.false_eq_true, if_false] at h
      cases hr : rec ctx true fd.field (rawValue raw fd.name) with
      | error e0 =>
        rw [hr] at h
        simp only at h
        cases hc : e0.caught with
        | true =>
          rw [hc] at h
          simp only [if_true] at h
          refine step _ d (fun k hk => ?_) (fun v e _ _ _ _ => ?_) h
          · rw [Dict.mem_keys_set]; simp [hk]
          · rw [Dict.mem_keys_set]; simp
        | false =>
          rw [hc] at h
          simp only [Bool.false_eq_true, if_false] at h
          split at h
          · refine step es d (fun _ h => h) (fun v e a1 a2 a3 a4 => ?_) h
            rw [rawValue_some a1, a3] at hr
            cases hr
            rw [a4] at hc; cases hc
          · cases h
      | ok w =>
        rw [hr] at h
        have no : ∀ v e, Dict.get? raw (.str fd.name) = some v → v ≠ .undef → rec ctx true fd.field v = .error e → e.caught = true → False := by
          intro v e a1 a2 a3 a4
          rw [rawValue_some a1, a3] at hr
          cases hr
        simp only at h
        split at h
        · exact step es _ (fun _ h => h) (fun v e a1 a2 a3 a4 => (no v e a1 a2 a3 a4).elim) h
        · split at h
          · refine step _ d (fun k hk => ?_) (fun v e a1 a2 a3 a4 => (no v e a1 a2 a3 a4).elim) h
            rw [Dict.mem_keys_set]; simp [hk]
          · split at h
            · exact step es d (fun _ h => h) (fun v e a1 a2 a3 a4 => (no v e a1 a2 a3 a4).elim) h
            · cases h

/-- Errors reported by `_mutate` stay in the report. -/
theorem mutate_errors_stay {env : Env} {n : Nat} {ctx : Ctx} {c : ClassDef} (hc : c.WF) (hv : ctx.validate = true) {mu : Mut} {raw : Data} {m : MutRes}
    (hm : runMutate (fieldConv env n) ctx c mu raw = .ok m)
    {entry : Env → Nat → Ctx → ClassDef → Mut → Data → R Data} (he : entry = runImport ∨ entry = runValidate)
    (hcr : ¬ Crashed (entry env n ctx c mu raw)) {k : Key} (hk : k ∈ m.errs.keys) : k ∈ (errorsOf (entry env n ctx c mu raw)).keys := by
  rw [← Dict.get?_isSome] at hk
  have hbody : ¬ Crashed (importBody (fieldConv env n) env ctx c m.raw m.errs) →
      ((errorsOf (importBody (fieldConv env n) env ctx c m.raw m.errs)).get? k).isSome = true := by
    intro h
    rw [((importBody_split (fieldConv env n) env ctx c hc m.raw m.errs).2.2 h).2]
    cases (errorsOf (importBody (fieldConv env n) env ctx c m.raw [])).get? k with
    | some x => rfl
    | none => exact hk
  rcases he with rfl | rfl
  · simp only [runImport, importLoop, hv, if_true, hm] at hcr ⊢
    rw [← Dict.get?_isSome]
    exact hbody hcr
  · unfold runValidate at hcr ⊢
    have h1 : ¬ Crashed (importBody (fieldConv env n) env ctx c m.raw m.errs) := by
      rintro ⟨e, h3, h4⟩
      rw [validateFn_crash hm h3 h4] at hcr
      exact hcr ⟨e, rfl, h4⟩
    rw [validateFn_eq hm h1] at hcr ⊢
    cases hvm : validateModel c m.data ctx.app (dataOf (importBody (fieldConv env n) env ctx c m.raw m.errs)) with
    | error e =>
      rw [hvm] at hcr
      refine absurd ⟨e, rfl, ?_⟩ hcr
      rintro a b rfl
      exact validateModel_noData _ _ hvm
    | ok x =>
      rw [errorsOf_finish, Dict.mem_keys_update]
      exact Or.inl ((Dict.get?_isSome _ _).1 (hbody h1))

/-- **C83** (conversion errors): a settable field whose value in the input does not convert is reported under its external name. -/
theorem C83_conversion_errors_reported (env : Env) (n : Nat) (ctx : Ctx) (c : ClassDef) (mu : Mut) (raw : Data) (hc : c.WF)
    (hv : ctx.validate = true) (entry : Env → Nat → Ctx → ClassDef → Mut → Data → R Data) (he : entry = runImport ∨ entry = runValidate)
    (hcr : ¬ Crashed (entry env n ctx c mu raw)) (fd : FieldDef) (hfd : fd ∈ settables c) (v : Val) (e : Exc)
    (hval : Dict.get? raw (.str fd.name) = some v) (hu : v ≠ .undef) (hconv : fieldConv env n ctx true fd.field v = .error e) (hcaught : e.caught = true) :
    Key.str fd.extName ∈ (errorsOf (entry env n ctx c mu raw)).keys := by
  cases hm : runMutate (fieldConv env n) ctx c mu raw with
  | error x =>
    exfalso
    have e1 : entry env n ctx c mu raw = .error x := by
      rcases he with rfl | rfl
      · simp only [runImport, importLoop, hv, if_true, hm]
      · simp only [runValidate, validateFn, hm]
    rw [e1] at hcr
    refine hcr ⟨x, rfl, ?_⟩
    rintro a b rfl
    unfold runMutate at hm
    split at hm
    · split at hm
      · rename_i h; cases hm; exact runSetters_noData _ _ h
      · cases hm
    · split at hm
      · rename_i h; cases hm; exact runSetters_noData _ _ h
      · split at hm <;> cases hm
  | ok m =>
    refine mutate_errors_stay hc hv hm he hcr ?_
    unfold runMutate at hm
    split at hm
    · split at hm
      · cases hm
      · rename_i h; cases hm; exact (runSetters_reports h).2 fd hfd v e hval hu hconv hcaught
    · split at hm
      · cases hm
      · rename_i h
        split at hm
        · cases hm
        · cases hm; exact (runSetters_reports h).2 fd hfd v e hval hu hconv hcaught

/-- The conversion or the setter of a settable field raises an exception that is no error of the data. -/
def SetterCrashes (env : Env) (n : Nat) (ctx : Ctx) (raw : Data) (fd : FieldDef) (e : Exc) : Prop :=
  e.caught = false ∧ e ≠ .other "AttributeError" ∧ ∃ v, Dict.get? raw (.str fd.name) = some v ∧ v ≠ .undef ∧
    (fieldConv env n ctx true fd.field v = .error e ∨
      ∃ w f, fieldConv env n ctx true fd.field v = .ok w ∧ fd.fset = some f ∧ f w = .error e)

/-- **C83** (other exceptions): the first foreign exception of a setter, other than `AttributeError`, ends the validation. -/
theorem C83_crash (env : Env) (n : Nat) (ctx : Ctx) (c : ClassDef) (mu : Mut) (raw : Data) (hv : ctx.validate = true)
    (entry : Env → Nat → Ctx → ClassDef → Mut → Data → R Data) (he : entry = runImport ∨ entry = runValidate)
    (pre post : List FieldDef) (fd : FieldDef) (hs : settables c = pre ++ fd :: post) (hpre : ∀ fd' ∈ pre, ∀ e, ¬ SetterCrashes env n ctx raw fd' e)
    (e : Exc) (hcr : SetterCrashes env n ctx raw fd e) : entry env n ctx c mu raw = .error e := by
  have key : ∀ (onInst : Bool) (es : Errs) (d : Data), runSetters (fieldConv env n) ctx raw onInst (pre ++ fd :: post) es d = .error e := by
    intro onInst
    clear hs
    induction pre with
    | nil =>
      intro es d
      obtain ⟨h1, h2, v, h3, h4, h5⟩ := hcr
      simp only [List.nil_append, runSetters]
      rw [rawValue_some h3, isUndef_false h4]
      simp only [Bool.false_eq_true, if_false]
      rcases h5 with h5 | ⟨w, f, h5, h6, h7⟩
      · rw [h5]
        simp only [h1, Bool.false_eq_true, if_false]
      · rw [h5, h6]
        simp only [h7, h1, Bool.false_eq_true, if_false]
    | cons x pre ih =>
      intro es d
      have ih' := ih fun fd' h => hpre fd' (by simp [h])
      have hx := hpre x (by simp)
      simp only [List.cons_append, runSetters]
      by_cases hab : ∀ v, Dict.get? raw (.str x.name) = some v → v = .undef
      · rw [rawValue_absent hab]; simp only [Val.isUndef, if_true]; exact ih' es d
      · obtain ⟨v, h3, h4⟩ : ∃ v, Dict.get? raw (.str x.name) = some v ∧ v ≠ .undef := by
          cases hg : Dict.get? raw (.str x.name) with
          | none => exact absurd (by rw [hg]; simp) hab
          | some v => exact ⟨v, rfl, fun hu => hab (by rw [hg]; intro v' h'; cases h'; exact hu)⟩
        rw [rawValue_some h3, isUndef_false h4]
        simp only [Bool.false_eq_true, if_false]
        cases hconv : fieldConv env n ctx true x.field v with
        | error e0 =>
          simp only
          split
          · exact ih' _ _
          · rename_i hnc
            split
            · exact ih' _ _
            · rename_i hna
              exact absurd ⟨by simpa using hnc, by rintro rfl; exact hna rfl, v, h3, h4, Or.inl hconv⟩ (hx e0)
        | ok w =>
          simp only
          cases hf : x.fset with
          | none => exact ih' _ _
          | some f =>
            simp only
            cases hw : f w with
            | ok asg => exact ih' _ _
            | error e0 =>
              simp only
              split
              · exact ih' _ _
              · rename_i hnc
                split
                · exact ih' _ _
                · rename_i hna
                  exact absurd ⟨by simpa using hnc, by rintro rfl; exact hna rfl, v, h3, h4, Or.inr ⟨w, f, hconv, hf, hw⟩⟩ (hx e0)
  have hm : runMutate (fieldConv env n) ctx c mu raw = .error e := by
    unfold runMutate
    rw [show c.settable = settables c from rfl, hs]
    cases mu with
    | inst d => simp only [key]
    | same b => simp only [key]
  rcases he with rfl | rfl
  · simp only [runImport, importLoop, hv, if_true, hm]
  · simp only [runValidate, validateFn, hm]

/-! ## C01 for validation -/

theorem rogue_completed {ctx : Ctx} {c : ClassDef} {raw : Data} (d : Data) (k : Key) :
    Rogue ctx c (raw.update (c.view d)) k ↔ Rogue ctx c raw k := by
  unfold Rogue
  rw [Dict.mem_keys_update]
  constructor
  · rintro ⟨h1, h2 | h2, h3⟩
    · exact ⟨h1, h2, h3⟩
    · exfalso
      apply h3
      unfold ClassDef.view Dict.keys at h2
      obtain ⟨kv, hkv, e⟩ := List.mem_map.1 h2
      obtain ⟨fd', hm, h4⟩ := List.mem_filterMap.1 hkv
      have : k = .str fd'.name := by
        split at h4
        · cases h4
        · split at h4
          · cases h4
          · split at h4
            · cases h4; exact e.symm
            · obtain ⟨w, -, h5⟩ := Option.map_eq_some_iff.1 h4
              subst h5; exact e.symm
      exact ⟨fd'.name, this, Or.inl ⟨fd', hm, Or.inl rfl⟩⟩
  · rintro ⟨h1, h2, h3⟩; exact ⟨h1, Or.inl h2, h3⟩

/-- What validating one field alone does. -/
theorem solo_validate {env : Env} {n : Nat} {ctx : Ctx} (hv : ctx.validate = true) (c : ClassDef) (raw : Data) {fd : FieldDef} (hfd : fd.fset = none) :
    solo env n ctx c (.inst []) raw fd =
      (match fieldRes (fieldConv env n) env ctx raw fd with
        | .error e => .error e
        | .ok o =>
          let a := Acc.apply ⟨ctx.trusted, []⟩ fd o
          if a.errs.isEmpty then .ok a.data else .error (.data a.errs a.data)) := by
  unfold solo runImport importLoop
  rw [hv]
  simp only [if_true]
  have hm : runMutate (fieldConv env n) ctx (only c fd) (.inst []) (restrict raw (ownNames ctx.mapping fd)) =
      .ok ⟨[], [], restrict raw (ownNames ctx.mapping fd)⟩ := by
    unfold runMutate
    have h1 : (only c fd).settable = [] := by simp [ClassDef.settable, only, hfd]
    have h2 : (only c fd).view [] = [] := by simp [ClassDef.view, only]
    rw [h1]
    simp only [runSetters, h2]
    rfl
  rw [hm]
  simp only
  rw [importBody_eq _ _ _ _ (only_wf c fd)]
  have h1 : (only c fd).loopFields ctx = [fd] := by simp [ClassDef.loopFields, hv, only]
  have h2 : startErrs ctx (only c fd) (restrict raw (ownNames ctx.mapping fd)) [] = [] := by simp [startErrs, solo_rogue]
  have h3 : ∀ d : Data, copySettable (only c fd) ctx (restrict raw (ownNames ctx.mapping fd)) d = d := by
    intro d; simp [copySettable, hv]
  rw [h1, h2]
  simp only [outcomes, h3]
  rw [fieldRes_congr (fun s hs => restrict_get raw _ s hs)]
  cases fieldRes (fieldConv env n) env ctx raw fd with
  | error e => rfl
  | ok o => rfl

/-- **C01, validation.**  For a class without setters whose model-level validators only check, validation of any input, on an instance with any
content, that does not crash: the keys of the error report are exactly the external names of the fields that fail when validated alone (on the input
completed with the content of the instance), the rogue keys, and the external names of the fields that are rejected by their model-level
validator; and validation succeeds iff there are none of these. -/
theorem C01_validation (env : Env) (n : Nat) (ctx : Ctx) (c : ClassDef) (content raw : Data)
    (hc : c.WF) (hx : DistinctExt c) (hp : PureValidators c) (hset : ∀ fd ∈ c.fields, fd.fset = none)
    (hval : ctx.validate = true) (htr : ctx.trusted.Nodup)
    (hcr : ¬ Crashed (runValidate env n ctx c (.inst content) raw))
    (completed : Data) (hcompleted : completed = raw.update (c.view content))
    (imported : R Data) (himp : imported = runImport env n ctx c (.inst content) raw) :
    (∀ k, k ∈ (errorsOf (runValidate env n ctx c (.inst content) raw)).keys ↔
      (∃ fd ∈ c.fields, Failed (solo env n ctx c (.inst []) completed fd) ∧ k = .str fd.extName) ∨ Rogue ctx c raw k ∨
      ∃ fd ∈ c.fields, ∃ t, Rejects c content ctx.app (dataOf imported) fd t ∧ k = .str fd.extName) ∧
    (Succeeded (runValidate env n ctx c (.inst content) raw) ↔
      (∀ fd ∈ c.fields, Succeeded (solo env n ctx c (.inst []) completed fd)) ∧ (∀ k, ¬ Rogue ctx c raw k) ∧
      ∀ fd ∈ c.fields, ∀ t, ¬ Rejects c content ctx.app (dataOf imported) fd t) := by
  have hmut : runMutate (fieldConv env n) ctx c (.inst content) raw = .ok ⟨[], content, completed⟩ := by
    unfold runMutate; rw [plain_settable hset, hcompleted]; rfl
  have himp' : imported = importBody (fieldConv env n) env ctx c completed [] := by
    rw [himp]; simp only [runImport, importLoop, hval, if_true, hmut]
  have hicr : ¬ Crashed imported := by
    rintro ⟨e, h3, h4⟩
    rw [himp'] at h3
    refine hcr ⟨e, ?_, h4⟩
    exact validateFn_crash hmut h3 h4
  have hrun : runValidate env n ctx c (.inst content) raw = finish (errorsOf imported) (validateModel c content ctx.app (dataOf imported)) := by
    rw [himp'] at hicr ⊢
    exact validateFn_eq hmut hicr
  have hnd : (dataOf imported).Nodup := by rw [himp']; exact importBody_data_nodup hc htr
  -- the fields
  have hos : ∃ os, outcomes (fieldRes (fieldConv env n) env ctx completed) c.fields = .ok os := by
    cases h : outcomes (fieldRes (fieldConv env n) env ctx completed) c.fields with
    | ok os => exact ⟨os, rfl⟩
    | error e =>
      exfalso
      obtain ⟨fd, _, he⟩ := outcomes_error h
      have := fieldRes_error he
      refine hicr ⟨e, ?_, by rintro es p rfl; cases this⟩
      rw [himp', importBody_eq _ _ _ _ hc, show c.loopFields ctx = c.fields by simp [ClassDef.loopFields, hval], h]
  obtain ⟨os, hos⟩ := hos
  have hfst := outcomes_map_fst hos
  have hmem := outcomes_mem hos
  have hsolo : ∀ p ∈ os, (Failed (solo env n ctx c (.inst []) completed p.1) ↔ p.2.err.isSome) ∧
      (Succeeded (solo env n ctx c (.inst []) completed p.1) ↔ p.2.err = none) := by
    intro p hpm
    have hfd : p.1 ∈ c.fields := by rw [← hfst]; exact List.mem_map_of_mem hpm
    rw [solo_validate hval c completed (hset p.1 hfd), hmem p hpm]
    obtain ⟨fd, o⟩ := p
    cases o with
    | skip => simp [Acc.apply, Outcome.err, Failed, Succeeded]
    | store v => simp [Acc.apply, Outcome.err, Failed, Succeeded]
    | fail t r => simp [Acc.apply, Outcome.err, Failed, Succeeded, Dict.set]
  have hierr : ∀ k, k ∈ (errorsOf imported).keys ↔
      (∃ fd ∈ c.fields, Failed (solo env n ctx c (.inst []) completed fd) ∧ k = .str fd.extName) ∨ Rogue ctx c raw k := by
    intro k
    have h0 : k ∈ (errorsOf imported).keys ↔ k ∈ (applyAll os ⟨ctx.trusted, startErrs ctx c completed []⟩).errs.keys := by
      rw [himp', importBody_eq _ _ _ _ hc, show c.loopFields ctx = c.fields by simp [ClassDef.loopFields, hval], hos]
      simp only
      split
      · rename_i h; rw [List.isEmpty_iff] at h; rw [h]; rfl
      · rfl
    rw [h0, applyAll_errs_keys, mem_startErrs, mem_rogueKeys, hcompleted, rogue_completed, ← hcompleted]
    simp only [Dict.keys_nil, List.not_mem_nil, false_or]
    rw [or_comm]
    refine or_congr ?_ Iff.rfl
    constructor
    · rintro ⟨p, h1, h2, h3⟩
      exact ⟨p.1, by rw [← hfst]; exact List.mem_map_of_mem h1, (hsolo p h1).1.2 h2, h3⟩
    · rintro ⟨fd, h1, h2, h3⟩
      rw [← hfst] at h1
      obtain ⟨p, hpm, rfl⟩ := List.mem_map.1 h1
      exact ⟨p, hpm, (hsolo p hpm).1.1 h2, h3⟩
  cases hvm : validateModel c content ctx.app (dataOf imported) with
  | error e =>
    exfalso
    rw [hrun, hvm] at hcr
    refine hcr ⟨e, rfl, ?_⟩
    rintro a b rfl
    exact validateModel_noData _ _ hvm
  | ok x =>
    have hmk : ∀ k, k ∈ Dict.keys x.1 ↔ ∃ fd ∈ c.fields, ∃ t, Rejects c content ctx.app (dataOf imported) fd t ∧ k = .str fd.extName := by
      intro k
      have hsp := fun {fd : FieldDef} (h : fd ∈ c.fields) => validateModel_spec hc hx hp hnd (es := x.1) (d' := x.2) hvm h
      constructor
      · intro hk
        unfold validateModel at hvm
        split at hvm
        · cases hvm
        · rename_i es1 inv d1 hmv
          split at hvm
          · cases hvm
          · cases hvm
            obtain ⟨-, h4, -⟩ := modelValidators_spec hp hmv
            rw [Dict.mem_keys_update] at hk
            rcases hk with hk | hk
            · cases hk
            · rw [h4] at hk
              obtain ⟨kv, hkv, rfl⟩ := List.mem_map.1 hk
              obtain ⟨fd, h5, h6⟩ := List.mem_filterMap.1 hkv
              obtain ⟨t, h7, rfl⟩ := Option.map_eq_some_iff.1 h6
              exact ⟨fd, h5, t, rejection_iff.1 h7, rfl⟩
      · rintro ⟨fd, h1, t, h2, rfl⟩
        rw [← Dict.get?_isSome, (hsp h1).2.1, rejection_iff.2 h2]
        rfl
    have hkeys : ∀ k, k ∈ (errorsOf (runValidate env n ctx c (.inst content) raw)).keys ↔
      (∃ fd ∈ c.fields, Failed (solo env n ctx c (.inst []) completed fd) ∧ k = .str fd.extName) ∨ Rogue ctx c raw k ∨
      ∃ fd ∈ c.fields, ∃ t, Rejects c content ctx.app (dataOf imported) fd t ∧ k = .str fd.extName := by
      intro k
      rw [hrun, hvm, errorsOf_finish, Dict.mem_keys_update, hierr, hmk, or_assoc]
    refine ⟨hkeys, ?_⟩
    have hsucc : Succeeded (runValidate env n ctx c (.inst content) raw) ↔ ∀ k, k ∉ (errorsOf (runValidate env n ctx c (.inst content) raw)).keys := by
      rw [hrun, hvm, succeeded_finish, errorsOf_finish]
      generalize (errorsOf imported).update x.1 = es
      cases es with
      | nil => simp
      | cons y es => simp only [reduceCtorEq, Dict.keys_cons, List.mem_cons, not_or, false_iff]; exact fun h => (h y.1).1 rfl
    rw [hsucc]
    simp only [hkeys, not_or, not_exists, not_and]
    constructor
    · intro h
      refine ⟨fun fd hfd => ?_, fun k => (h k).2.1, fun fd hfd t ht => (h (.str fd.extName)).2.2 fd hfd t ht rfl⟩
      have hfd' := hfd
      rw [← hfst] at hfd'
      obtain ⟨p, hpm, rfl⟩ := List.mem_map.1 hfd'
      rw [(hsolo p hpm).2]
      cases he : p.2.err with
      | none => rfl
      | some t => exact absurd rfl ((h (.str p.1.extName)).1 p.1 hfd ((hsolo p hpm).1.2 (by rw [he]; rfl)))
    · rintro ⟨h1, h2, h3⟩ k
      refine ⟨fun fd hfd hf => ?_, h2 k, fun fd hfd t ht => absurd ht (h3 fd hfd t)⟩
      exfalso
      obtain ⟨d, hd⟩ := h1 fd hfd
      obtain ⟨es, p, he⟩ := hf
      rw [hd] at he; cases he

/-! ## The hypotheses are met -/

namespace SetterSample
open Samples

/-- `class Box(Model): side = IntType(); area = calculated(IntType(), …, fset=…)`, whose setter sets `side` to 2 for the area 4, raises
`ValidationError` for 5, `TypeError` for 6 and `AttributeError` for anything else. -/
def box : ClassDef where
  name := "Box"
  fields := [
    { name := "side", field := .mk (.leaf intLeaf) {} },
    { name := "area", field := .mk (.leaf intLeaf) { serializedName := some "size" },
      fget := some fun _ => none,
      fset := some fun
        | .int 4 => .ok [(.str "side", .int 2)]
        | .int 5 => validErr "square"
        | .int 6 => .error (.other "TypeError")
        | _ => .error (.other "AttributeError") }]

/-- Validation of objects. -/
def vctx : Ctx := { conv := .val, validate := true }

theorem area_mem : settables box = [box.fields[1]] := rfl

-- the area 4 sets the side, whatever the input has for it
example : dataOf (runValidate env 3 vctx box (.inst []) [(.str "area", .int 4), (.str "side", .str "x")]) =
    [(.str "side", .int 2), (.str "area", .int 4)] :=
  (C83_setters env 3 vctx box [] _ (by unfold ClassDef.WF; decide) (by unfold DistinctExt; decide) rfl [.assigns [(.str "side", .int 2)]]
    (.cons (.assigns (v := .int 4) (w := .int 4) rfl (by simp) rfl rfl rfl) .nil) runValidate (Or.inr rfl) _ rfl _ rfl _ rfl).2.2.1.trans rfl

-- the area 5 is refused
example : (errorsOf (runValidate env 3 vctx box (.inst []) [(.str "area", .int 5)])).get? (.str "size") = some (.leaf .valid ["square"]) :=
  ((C83_setters env 3 vctx box [] _ (by unfold ClassDef.WF; decide) (by unfold DistinctExt; decide) rfl [.refuses (.leaf .valid ["square"])]
    (.cons (.refuses (v := .int 5) (w := .int 5) (e := .field .valid ["square"]) rfl (by simp) rfl rfl rfl rfl) .nil) runValidate (Or.inr rfl)
      _ rfl _ rfl _ rfl).2.2.2.2 (by rintro ⟨e, h, h2⟩; cases h; exact h2 _ _ rfl) _ _).2 (Or.inr ⟨rfl, _, List.mem_singleton.2 rfl, rfl⟩)

example : (errorsOf (runValidate env 3 vctx box (.same false) [(.str "area", .int 5)])).get? (.str "size") = some (.leaf .valid ["square"]) :=
  ((C83_plain_dict env 3 vctx box _ (by unfold ClassDef.WF; decide) (by unfold DistinctExt; decide) rfl [.refuses (.leaf .valid ["square"])]
    (.cons (.refuses (v := .int 5) (w := .int 5) (e := .field .valid ["square"]) rfl (by simp) rfl rfl rfl rfl) .nil) runValidate (Or.inr rfl)
      _ rfl _ rfl).2.2.2 (by rintro ⟨e, h, h2⟩; cases h; exact h2 _ _ rfl) _ _).2 (Or.inr ⟨rfl, _, List.mem_singleton.2 rfl, rfl⟩)

example : Key.str "size" ∈ (errorsOf (runValidate env 3 vctx box (.inst []) [(.str "area", .str "x")])).keys :=
  C83_conversion_errors_reported env 3 vctx box (.inst []) _ (by unfold ClassDef.WF; decide) rfl runValidate (Or.inr rfl)
    (by rintro ⟨e, h, h2⟩; cases h; exact h2 _ _ rfl) box.fields[1] (List.mem_singleton.2 rfl) (.str "x") (.field .conv ["int"]) rfl (by simp) rfl rfl

example : runValidate env 3 vctx box (.inst []) [(.str "area", .int 6)] = .error (.other "TypeError") :=
  C83_crash env 3 vctx box (.inst []) _ rfl runValidate (Or.inr rfl) [] [] box.fields[1] rfl (by simp) _
    ⟨rfl, by simp, .int 6, rfl, by simp, Or.inr ⟨.int 6, _, rfl, rfl, rfl⟩⟩

example : Key.str "qty" ∈ (errorsOf (runValidate env 3 vctx item (.inst [(.str "tag", .str "t")]) [])).keys :=
  ((C01_validation env 3 vctx item [(.str "tag", .str "t")] [] (by unfold ClassDef.WF; decide) (by unfold DistinctExt; decide)
    (by intro kv h; cases h) (by intro fd h; simp only [item, List.mem_cons, List.not_mem_nil, or_false] at h; rcases h with rfl | rfl <;> rfl)
    rfl (by simp [vctx, Dict.Nodup]) (by rintro ⟨e, h, h2⟩; cases h; exact h2 _ _ rfl) _ rfl _ rfl).1 _).2
    (Or.inl ⟨item.fields[0], by simp [item], ⟨_, _, rfl⟩, rfl⟩)

end SetterSample

end Verif
