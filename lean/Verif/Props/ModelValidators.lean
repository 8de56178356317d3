import Verif.Props.Deep

/-! # C20, C21: model-level validators -/
namespace Verif

/-! ## Specification vocabulary -/

/-- What a model-level validator's exception puts into the error report. -/
inductive ReportOf : Exc → ErrTree → Prop
  | field {k m} : ReportOf (.field k m) (.msgs m)
  | data {es p} : ReportOf (.data es p) (.node es)

/-- The validator of field `fd`, called with the data `d`, raises; `t` is the report. `mv` is the
content of the instance passed as first argument. -/
def Rejects (c : ClassDef) (mv : Data) (app : Val) (d : Data) (fd : FieldDef) (t : ErrTree) : Prop :=
  ∃ g w e, Dict.get? c.validators fd.name = some g ∧ Dict.get? d (.str fd.name) = some w ∧ w ≠ .undef ∧
    g mv d w app = .error e ∧ ReportOf e t

/-- A validator that records its name in the data under the key `''` and accepts. -/
def recorder (name : String) : ModelValidator := fun _ d _ _ =>
  .ok (d.set (.str "") (.list ((match rawValue d "" with | .list xs => xs | _ => []) ++ [.str name])))

/-- The recorded calls. -/
def calls (d : Data) : List Val := match rawValue d "" with | .list xs => xs | _ => []

/-! ## Lemmas -/

/-- The report of the validator of `fd`, if it raises. -/
def rejection (c : ClassDef) (mv : Data) (app : Val) (d : Data) (fd : FieldDef) : Option ErrTree :=
  if (rawValue d fd.name).isUndef then none
  else match Dict.get? c.validators fd.name with
    | none => none
    | some g =>
      match g mv d (rawValue d fd.name) app with
      | .error (.field _ m) => some (.msgs m)
      | .error (.data es _) => some (.node es)
      | _ => none

theorem rejection_iff {c : ClassDef} {mv : Data} {app : Val} {d : Data} {fd : FieldDef} {t : ErrTree} :
    rejection c mv app d fd = some t ↔ Rejects c mv app d fd t := by
  unfold rejection Rejects rawValue
  constructor
  · intro h
    cases hw : Dict.get? d (.str fd.name) with
    | none => rw [hw] at h; simp [Val.isUndef] at h
    | some w =>
      rw [hw] at h
      simp only [Option.getD_some] at h
      split at h
      · cases h
      · rename_i hu
        have hu : w ≠ .undef := fun e => hu ((Val.isUndef_iff _).2 e)
        split at h
        · cases h
        · rename_i g hg
          split at h
          · rename_i he; injection h with h; subst h; exact ⟨g, w, _, hg, rfl, hu, he, .field⟩
          · rename_i he; injection h with h; subst h; exact ⟨g, w, _, hg, rfl, hu, he, .data⟩
          · cases h
  · rintro ⟨g, w, e, h1, h2, h3, h4, h5⟩
    rw [h1, h2]
    simp only [Option.getD_some]
    rw [if_neg (fun h => h3 ((Val.isUndef_iff _).1 h)), h4]
    cases h5 <;> rfl

theorem modelValidators_spec {c : ClassDef} (hp : PureValidators c) {mv : Data} {app : Val} {fds : List FieldDef}
    {d : Data} {es : Errs} {inv : List String} {d' : Data}
    (h : modelValidators c mv app fds d = .ok (es, inv, d')) :
    d' = d ∧
    es = fds.filterMap (fun fd => (rejection c mv app d fd).map fun t => (.str fd.extName, t)) ∧
    inv = (fds.filter fun fd => (rejection c mv app d fd).isSome).map (·.name) := by
  induction fds generalizing es inv d' with
  | nil => cases h; exact ⟨rfl, rfl, rfl⟩
  | cons fd fds ih =>
    simp only [modelValidators] at h
    have hrej : rejection c mv app d fd = rejection c mv app d fd := rfl
    conv at hrej => rhs; unfold rejection
    cases hu : (rawValue d fd.name).isUndef with
    | true =>
      rw [hu] at h hrej
      simp only [if_true] at h hrej
      obtain ⟨h1, h2, h3⟩ := ih h
      exact ⟨h1, by simp [hrej, h2], by simp [hrej, h3]⟩
    | false =>
      rw [hu] at h hrej
      simp only [Bool.false_eq_true, if_false] at h hrej
      cases hg : Dict.get? c.validators fd.name with
      | none =>
        rw [hg] at h hrej
        obtain ⟨h1, h2, h3⟩ := ih h
        exact ⟨h1, by simp [hrej, h2], by simp [hrej, h3]⟩
      | some g =>
        rw [hg] at h hrej
        simp only [] at h hrej
        cases hr : g mv d (rawValue d fd.name) app with
        | ok d1 =>
          rw [hr] at h hrej
          have := hp _ (Dict.mem_of_get? hg) _ _ _ _ _ hr
          subst this
          obtain ⟨h1, h2, h3⟩ := ih h
          exact ⟨h1, by simp [hrej, h2], by simp [hrej, h3]⟩
        | error e =>
          rw [hr] at h hrej
          simp only [] at h
          cases hrec : modelValidators c mv app fds d with
          | error e' => rw [hrec] at h; cases e <;> cases h
          | ok r =>
            obtain ⟨es1, inv1, d1⟩ := r
            obtain ⟨h1, h2, h3⟩ := ih hrec
            rw [hrec] at h
            cases e with
            | field k m =>
              cases h
              exact ⟨h1, by simp [hrej, h2], by simp [hrej, h3]⟩
            | data es2 p =>
              cases h
              exact ⟨h1, by simp [hrej, h2], by simp [hrej, h3]⟩
            | _ => cases h

theorem popAll_get {ns : List String} {d d' : Data} (hd : d.Nodup) (h : popAll ns d = .ok d') (k : Key) :
    Dict.get? d' k = if k ∈ ns.map Key.str then none else Dict.get? d k := by
  induction ns generalizing d with
  | nil => cases h; simp
  | cons n ns ih =>
    simp only [popAll] at h
    split at h
    · rw [ih (Dict.nodup_erase hd _) h, Dict.get?_erase hd]
      by_cases hk : k = .str n
      · subst hk; simp
      · have : ¬ Key.str n = k := fun e => hk e.symm
        simp [hk, this]
    · cases h

theorem importBody_data_nodup {rec : Rec} {env : Env} {ctx : Ctx} {c : ClassDef} (hc : c.WF) (ht : ctx.trusted.Nodup)
    {raw : Data} {errs0 : Errs} : (dataOf (importBody rec env ctx c raw errs0)).Nodup := by
  rw [importBody_eq _ _ _ _ hc]
  have hfold : ∀ (fds : List FieldDef) (d : Data), d.Nodup →
      Dict.Nodup (fds.foldl (fun d fd => d.set (.str fd.name) (rawValue raw fd.name)) d) := by
    intro fds
    induction fds with
    | nil => intro d h; exact h
    | cons fd fds ih => intro d h; exact ih _ (Dict.nodup_set h _ _)
  have hcopy : ∀ d : Data, d.Nodup → Dict.Nodup (copySettable c ctx raw d) := by
    intro d h
    unfold copySettable
    split
    · exact h
    · exact hfold _ _ h
  cases hos : outcomes (fieldRes rec env ctx raw) (c.loopFields ctx) with
  | error e =>
    obtain ⟨fd, _, he⟩ := outcomes_error hos
    have := fieldRes_error he
    cases e <;> simp [Exc.caught] at this <;> exact List.nodup_nil
  | ok os =>
    simp only []
    split
    · exact hcopy _ (applyAll_nodup _ _ ht)
    · exact hcopy _ (applyAll_nodup _ _ ht)

theorem filterMap_get {fds : List FieldDef} (hx : (fds.map (·.extName)).Nodup) (r : FieldDef → Option ErrTree) :
    Dict.Nodup (fds.filterMap fun fd => (r fd).map fun t => (Key.str fd.extName, t)) ∧
    (∀ fd ∈ fds, Dict.get? (fds.filterMap fun fd => (r fd).map fun t => (Key.str fd.extName, t)) (.str fd.extName) = r fd) ∧
    ∀ k, (∀ fd ∈ fds, k ≠ .str fd.extName) →
      Dict.get? (fds.filterMap fun fd => (r fd).map fun t => (Key.str fd.extName, t)) k = none := by
  induction fds with
  | nil => exact ⟨List.nodup_nil, by simp, by simp⟩
  | cons fd fds ih =>
    simp only [List.map_cons, List.nodup_cons] at hx
    obtain ⟨h1, h2, h3⟩ := ih hx.2
    have hne : ∀ fd' ∈ fds, Key.str fd.extName ≠ .str fd'.extName := by
      intro fd' h e; injection e with e; exact hx.1 (List.mem_map.2 ⟨fd', h, e.symm⟩)
    have hnone := h3 (.str fd.extName) hne
    cases hr : r fd with
    | none =>
      simp only [List.filterMap_cons, hr, Option.map_none]
      refine ⟨h1, ?_, ?_⟩
      · intro fd' hfd'
        rcases List.mem_cons.1 hfd' with rfl | h
        · rw [hnone, hr]
        · exact h2 fd' h
      · intro k hk; exact h3 k fun fd' h => hk fd' (List.mem_cons_of_mem _ h)
    | some t =>
      simp only [List.filterMap_cons, hr, Option.map_some]
      refine ⟨List.nodup_cons.2 ⟨?_, h1⟩, ?_, ?_⟩
      · exact (Dict.get?_eq_none _ _).1 hnone
      · intro fd' hfd'
        rcases List.mem_cons.1 hfd' with rfl | h
        · simp [Dict.get?_cons, hr]
        · rw [Dict.get?_cons, if_neg (hne fd' h)]; exact h2 fd' h
      · intro k hk
        rw [Dict.get?_cons, if_neg (fun e => hk fd (List.mem_cons_self ..) e.symm)]
        exact h3 k fun fd' h => hk fd' (List.mem_cons_of_mem _ h)

theorem validateModel_spec {c : ClassDef} (hc : c.WF) (hx : DistinctExt c) (hp : PureValidators c) {mv : Data} {app : Val}
    {d d' : Data} {es : Errs} (hd : d.Nodup) (h : validateModel c mv app d = .ok (es, d')) {fd : FieldDef} (hfd : fd ∈ c.fields) :
    es.Nodup ∧ Dict.get? es (.str fd.extName) = rejection c mv app d fd ∧
    Dict.get? d' (.str fd.name) = if (rejection c mv app d fd).isSome then none else Dict.get? d (.str fd.name) := by
  unfold validateModel at h
  split at h
  · cases h
  · rename_i es1 inv d1 hmv
    split at h
    · cases h
    · rename_i d2 hpop
      injection h with h
      injection h with h1 h2
      subst h1 h2
      obtain ⟨rfl, h4, h5⟩ := modelValidators_spec hp hmv
      obtain ⟨h6, h7, h8⟩ := filterMap_get hx (rejection c mv app d1)
      rw [← h4] at h6 h7
      refine ⟨Dict.nodup_update (show Dict.Nodup [] from List.nodup_nil) _, ?_, ?_⟩
      · rw [Dict.get?_update _ _ h6, h7 fd hfd]
        cases rejection c mv app d1 fd <;> rfl
      · rw [popAll_get hd hpop]
        have : Key.str fd.name ∈ inv.map Key.str ↔ (rejection c mv app d1 fd).isSome = true := by
          rw [h5]
          simp only [List.mem_map, List.mem_filter]
          constructor
          · rintro ⟨n, ⟨fd', ⟨ha, hb⟩, rfl⟩, hn⟩
            injection hn with hn
            have : fd' = fd := by
              clear h4 h5 h6 h7 h8 hmv hpop
              unfold ClassDef.WF at hc
              generalize c.fields = fs at *
              induction fs with
              | nil => cases ha
              | cons y ys ih =>
                simp only [List.map_cons, List.nodup_cons] at hc
                rcases List.mem_cons.1 ha with rfl | a <;> rcases List.mem_cons.1 hfd with rfl | b
                · rfl
                · exact absurd (List.mem_map.2 ⟨fd, b, hn.symm⟩) hc.1
                · exact absurd (List.mem_map.2 ⟨fd', a, hn⟩) hc.1
                · exact ih hc.2 b a
            rw [← this]; exact hb
          · intro h; exact ⟨fd.name, ⟨fd, ⟨hfd, h⟩, rfl⟩, rfl⟩
        by_cases hr : (rejection c mv app d1 fd).isSome = true
        · rw [if_pos (this.2 hr), if_pos hr]
        · rw [if_neg (fun h => hr (this.1 h)), if_neg hr]

/-! ## C20 -/

/-- **C20.** Model validation (of a class without setters, whose model-level validators only check)
first converts and validates the fields as the import loop alone would, then consults the model-level
validators on the resulting data.  Unless it crashes: a field whose validator raises is reported
under its external name with the validator's messages and has no value in the data; every other field
keeps the value and the error the import loop gave it. -/
theorem C20_model_validators (env : Env) (n : Nat) (ctx : Ctx) (c : ClassDef) (content raw : Data)
    (hc : c.WF) (hx : DistinctExt c) (hp : PureValidators c) (hset : ∀ fd ∈ c.fields, fd.fset = none)
    (hval : ctx.validate = true) (htr : ctx.trusted.Nodup)
    (hcr : ¬ Crashed (runValidate env n ctx c (.inst content) raw))
    (fd : FieldDef) (hfd : fd ∈ c.fields) (imported : R Data)
    (himp : imported = runImport env n ctx c (.inst content) raw) :
    (∀ t, Rejects c content ctx.app (dataOf imported) fd t →
      (errorsOf (runValidate env n ctx c (.inst content) raw)).get? (.str fd.extName) = some t ∧
      (dataOf (runValidate env n ctx c (.inst content) raw)).get? (.str fd.name) = none) ∧
    ((∀ t, ¬ Rejects c content ctx.app (dataOf imported) fd t) →
      (errorsOf (runValidate env n ctx c (.inst content) raw)).get? (.str fd.extName) =
        (errorsOf imported).get? (.str fd.extName) ∧
      (dataOf (runValidate env n ctx c (.inst content) raw)).get? (.str fd.name) =
        (dataOf imported).get? (.str fd.name)) := by
  have hmut : runMutate (fieldConv env n) ctx c (.inst content) raw = .ok ⟨[], content, raw.update (c.view content)⟩ := by
    unfold runMutate; rw [plain_settable hset]; rfl
  unfold runImport importLoop at himp
  rw [hval, hmut] at himp
  simp only [if_true] at himp
  have hnd : (dataOf imported).Nodup := by rw [himp]; exact importBody_data_nodup hc htr
  have hmain : ∃ es2 d', validateModel c content ctx.app (dataOf imported) = .ok (es2, d') ∧
      errorsOf (runValidate env n ctx c (.inst content) raw) = (errorsOf imported).update es2 ∧
      dataOf (runValidate env n ctx c (.inst content) raw) = d' := by
    unfold runValidate validateFn at hcr ⊢
    rw [hmut] at hcr ⊢
    simp only [] at hcr ⊢
    rw [← himp] at hcr ⊢
    have fin : ∀ (es : Errs) (d : Data), (∀ r : R Data, (match validateModel c content ctx.app d with
        | .error e => .error e
        | .ok (es2, d') => if (es.update es2).isEmpty = true then .ok d' else .error (.data (es.update es2) d')) = r →
        ¬ Crashed r → ∃ es2 d', validateModel c content ctx.app d = .ok (es2, d') ∧
          errorsOf r = es.update es2 ∧ dataOf r = d') := by
      intro es d r hr hcr
      cases hv : validateModel c content ctx.app d with
      | error e =>
        rw [hv] at hr
        simp only [] at hr
        subst hr
        exfalso
        refine hcr ⟨e, rfl, ?_⟩
        rintro es' p rfl
        unfold validateModel at hv
        split at hv
        · rename_i e' he'
          injection hv with hv; subst hv
          have : ∀ fds d, modelValidators c content ctx.app fds d ≠ .error (.data es' p) := by
            intro fds
            induction fds with
            | nil => intro d h; cases h
            | cons fd fds ih =>
              intro d h
              simp only [modelValidators] at h
              split at h
              · exact ih _ h
              · split at h
                · exact ih _ h
                · split at h
                  · rename_i hn
                    injection h with h; subst h; cases hn
                  · split at h
                    · rename_i h'; injection h with h; subst h; exact ih _ h'
                    · cases h
          exact this _ _ he'
        · split at hv
          · rename_i e' he'
            injection hv with hv; subst hv
            have : ∀ ns d, popAll ns d ≠ .error (.data es' p) := by
              intro ns
              induction ns with
              | nil => intro d h; cases h
              | cons n ns ih =>
                intro d h
                simp only [popAll] at h
                split at h
                · exact ih _ h
                · cases h
            exact this _ _ he'
          · cases hv
      | ok r2 =>
        obtain ⟨es2, d'⟩ := r2
        rw [hv] at hr
        simp only [] at hr
        subst hr
        refine ⟨es2, d', rfl, ?_, ?_⟩
        · split
          · rename_i he; rw [List.isEmpty_iff] at he; rw [he]; rfl
          · rfl
        · split <;> rfl
    cases imported with
    | ok d =>
      simp only [] at hcr ⊢
      exact fin [] d _ rfl hcr
    | error e =>
      cases e with
      | data es p =>
        simp only [] at hcr ⊢
        exact fin es p _ rfl hcr
      | _ => exact absurd ⟨_, rfl, by intro _ _ h; cases h⟩ hcr
  obtain ⟨es2, d', hv, h1, h2⟩ := hmain
  obtain ⟨h3, h4, h5⟩ := validateModel_spec hc hx hp hnd hv hfd
  rw [h1, h2, Dict.get?_update _ _ h3, h4, h5]
  constructor
  · intro t ht
    rw [← rejection_iff] at ht
    rw [ht]
    exact ⟨rfl, rfl⟩
  · intro ht
    have : rejection c content ctx.app (dataOf imported) fd = none := by
      cases hr : rejection c content ctx.app (dataOf imported) fd with
      | none => rfl
      | some t => exact absurd (rejection_iff.1 hr) (ht t)
    rw [this]
    exact ⟨rfl, rfl⟩

/-- **C20** (order, exactly once). If the model-level validators of the fields `names` each record
their call in the data, validating any data leaves the record of exactly one call per field that has
a value, in field order. -/
theorem C20_each_runs_once_in_order (c : ClassDef) (names : List String) (hnames : ∀ n ∈ names, n ≠ "")
    (hv : c.validators = names.map fun n => (n, recorder n)) (mv : Data) (app : Val) (d : Data)
    (hlog : Dict.get? d (.str "") = none) :
    ∃ d', validateModel c mv app d = .ok ([], d') ∧
      calls d' = ((c.fields.filter fun fd => decide (fd.name ∈ names) && !(rawValue d fd.name).isUndef).map
        fun fd => Val.str fd.name) := by
  have hget : ∀ n, Dict.get? c.validators n = if n ∈ names then some (recorder n) else none := by
    intro n
    rw [hv]
    clear hv hnames
    induction names with
    | nil => rfl
    | cons a as ih =>
      simp only [List.map_cons, Dict.get?_cons, ih, List.mem_cons]
      by_cases h : a = n
      · subst h; simp
      · have : ¬ n = a := fun e => h e.symm
        simp [h, this]
  have hcalls : ∀ (d : Data) n, calls (d.set (.str "") (.list ((match rawValue d "" with | .list xs => xs | _ => []) ++ [.str n]))) =
      calls d ++ [.str n] := by
    intro d n
    unfold calls rawValue
    simp
  have hraw : ∀ (d : Data) v s, s ≠ "" → rawValue (d.set (.str "") v) s = rawValue d s := by
    intro d v s hs
    unfold rawValue
    rw [Dict.get?_set_ne]
    intro e; injection e with e; exact hs e.symm
  have key : ∀ (fds : List FieldDef) (dd : Data), (∀ s, s ≠ "" → rawValue dd s = rawValue d s) →
      ∃ d', modelValidators c mv app fds dd = .ok ([], [], d') ∧
        calls d' = calls dd ++ ((fds.filter fun fd => decide (fd.name ∈ names) && !(rawValue d fd.name).isUndef).map
          fun fd => Val.str fd.name) := by
    intro fds
    induction fds with
    | nil => intro dd _; exact ⟨dd, rfl, by simp⟩
    | cons fd fds ih =>
      intro dd hdd
      simp only [modelValidators, hget]
      by_cases hn : fd.name ∈ names
      · rw [hdd _ (hnames _ hn)]
        cases hu : (rawValue d fd.name).isUndef with
        | true =>
          obtain ⟨d', h1, h2⟩ := ih dd hdd
          exact ⟨d', by simpa [hu] using h1, by simp [hu, h2]⟩
        | false =>
          simp only [hn, if_true, Bool.false_eq_true, if_false, recorder]
          obtain ⟨d', h1, h2⟩ := ih (dd.set (.str "") (.list ((match rawValue dd "" with | .list xs => xs | _ => []) ++ [.str fd.name])))
            (fun s hs => by rw [hraw _ _ _ hs]; exact hdd s hs)
          refine ⟨d', h1, ?_⟩
          rw [h2, hcalls]
          simp [hn, hu]
      · obtain ⟨d', h1, h2⟩ := ih dd hdd
        refine ⟨d', ?_, by simp [hn, h2]⟩
        simp only [hn, if_false, ite_self]
        exact h1
  obtain ⟨d', h1, h2⟩ := key c.fields d (fun _ _ => rfl)
  refine ⟨d', ?_, ?_⟩
  · unfold validateModel
    rw [h1]
    rfl
  · rw [h2]
    have : calls d = [] := by unfold calls rawValue; rw [hlog]; rfl
    rw [this, List.nil_append]

/-! ## C21 -/

/-- A nested instance passed the model-level validators of its class. -/
def PassedModelValidators (env : Env) (app : Val) (_ : Bool) (f : Field) (v : Val) : Prop :=
  ((∃ cls, f.ty = .model cls) ∨ ∃ p, f.ty = .poly p) → v.isEmpty = true ∨
    ∃ k d c, v = .inst k d ∧ env.cls k = some c ∧
      ∀ fd ∈ c.fields, ∀ g, Dict.get? c.validators fd.name = some g →
        ∀ w, Dict.get? d (.str fd.name) = some w → w ≠ .undef → ∃ mv, g mv d w app = .ok d

theorem validateModel_passed {c : ClassDef} (hp : PureValidators c) {mv : Data} {app : Val} {d d' : Data}
    (h : validateModel c mv app d = .ok ([], d')) {fd : FieldDef} (hfd : fd ∈ c.fields) {g : ModelValidator}
    (hg : Dict.get? c.validators fd.name = some g) {w : Val} (hw : Dict.get? d (.str fd.name) = some w)
    (hu : w ≠ .undef) : g mv d w app = .ok d := by
  unfold validateModel at h
  split at h
  · cases h
  · rename_i es1 inv d1 hmv
    split at h
    · cases h
    · injection h with h
      injection h with h1 _
      have hes := (update_eq_nil h1).2
      obtain ⟨_, h4, _⟩ := modelValidators_spec hp hmv
      rw [hes] at h4
      have hrej : rejection c mv app d fd = none := by
        cases hr : rejection c mv app d fd with
        | none => rfl
        | some t =>
          have : (Key.str fd.extName, t) ∈ (c.fields.filterMap fun fd => (rejection c mv app d fd).map fun t => (Key.str fd.extName, t)) :=
            List.mem_filterMap.2 ⟨fd, hfd, by rw [hr]; rfl⟩
          rw [← h4] at this
          cases this
      -- no crash
      have hnc : ∀ fds, fd ∈ fds → ∀ es inv d1, modelValidators c mv app fds d = .ok (es, inv, d1) →
          ∀ e, g mv d w app = .error e → ∃ t, ReportOf e t := by
        intro fds
        induction fds with
        | nil => intro h; cases h
        | cons fd' fds ih =>
          intro hm es inv d1 hrun e he
          simp only [modelValidators] at hrun
          rcases List.mem_cons.1 hm with rfl | hm
          · have hr : rawValue d fd.name = w := by unfold rawValue; rw [hw]; rfl
            rw [hr, hg] at hrun
            have : w.isUndef = false := by
              cases hh : w.isUndef with
              | true => exact absurd ((Val.isUndef_iff _).1 hh) hu
              | false => rfl
            rw [this] at hrun
            simp only [Bool.false_eq_true, if_false, he] at hrun
            cases e with
            | field k m => exact ⟨_, .field⟩
            | data a b => exact ⟨_, .data⟩
            | _ => cases hrun
          · split at hrun
            · exact ih hm _ _ _ hrun e he
            · rename_i g' hg'
              have hgg : Dict.get? c.validators fd'.name = some g' := by
                split at hg'
                · cases hg'
                · exact hg'
              split at hrun
              · rename_i d2 hd2
                have := hp _ (Dict.mem_of_get? hgg) _ _ _ _ _ hd2
                subst this
                exact ih hm _ _ _ hrun e he
              · split at hrun
                · cases hrun
                · split at hrun
                  · cases hrun
                  · rename_i hrec
                    exact ih hm _ _ _ hrec e he
      cases hr : g mv d w app with
      | ok d2 => rw [hp _ (Dict.mem_of_get? hg) _ _ _ _ _ hr]
      | error e =>
        obtain ⟨t, ht⟩ := hnc _ hfd _ _ _ hmv e hr
        rw [rejection_iff.2 ⟨g, w, e, hg, hw, hu, hr, ht⟩] at hrej
        cases hrej

theorem newInstance_passed {rec : Rec} {env : Env} {ctx : Ctx} (hv : ctx.validate = true) {c : ClassDef} (hp : PureValidators c)
    {raw : Data} {w : Val} (h : newInstance rec env ctx c raw = .ok w) :
    ∃ d, w = .inst c.name d ∧ ∀ fd ∈ c.fields, ∀ g, Dict.get? c.validators fd.name = some g →
        ∀ w, Dict.get? d (.str fd.name) = some w → w ≠ .undef → ∃ mv, g mv d w ctx.app = .ok d := by
  unfold newInstance at h
  rw [hv] at h
  simp only [if_true] at h
  cases hf : validateFn rec env ctx c (.inst []) raw with
  | error e => rw [hf] at h; cases h
  | ok d =>
    rw [hf] at h
    cases h
    obtain ⟨m, d0, _, _, h3⟩ := validateFn_ok hf
    have := validateModel_pure hp h3
    subst this
    exact ⟨d, rfl, fun fd hfd g hg w hw hu => ⟨_, validateModel_passed hp h3 hfd hg hw hu⟩⟩

/-- **C21**. When models are validated as objects with conversion on, then in the
validated data every nested model, at any depth, passed all model-level validators of its own class. -/
theorem C21_nested_validators_run (env : Env) (n : Nat) (ctx : Ctx) (c : ClassDef) (mu : Mut)
    (raw d : Data) (hwf : env.WF) (hpure : env.Pure) (hnames : ∀ k c, env.cls k = some c → c.name = k) (hc : c.WF)
    (hpc : PureValidators c) (ht : ctx.trusted = [] ∨ ctx.recursive = false)
    (hcv : ctx.convert = true) (hoo : ctx.oo = true) (hval : ctx.validate = true)
    (hrun : runValidate env n ctx c mu raw = .ok d)
    (fd : FieldDef) (hfd : fd ∈ c.fields) (hp : fd.fset = none)
    (hnt : Key.str fd.name ∉ ctx.trusted.keys) (w : Val) (hw : Dict.get? d (.str fd.name) = some w) :
    Everywhere env (PassedModelValidators env ctx.app) (fun _ => True) false true fd.field w := by
  obtain ⟨raw', errs, hb⟩ := successful_body (Or.inr ⟨hpc, hrun⟩)
  have hall : ∀ f : Field, f.AllLeaves (fun _ => True) := by
    intro f
    apply Field.rec (motive_1 := fun t => t.AllLeaves (fun _ => True)) (motive_2 := fun f => f.AllLeaves (fun _ => True))
    · intro l; trivial
    · intro f _ _ ih; exact ih
    · intro f _ ih; exact ih
    · intro _; trivial
    · intro _; trivial
    · intro t o ih; exact ih
  have := (everywhere_body (P := fun _ => True) (Q := PassedModelValidators env ctx.app) (A := fun _ => True) hwf hpure
    (fun k c h fd hfd => hall _) ctx ht (Or.inr hcv) ?_
    (fun _ _ _ _ _ _ _ _ => trivial) hc (fun fd h => hall _) hb hfd hp hnt).2 w hw
  · simpa [hval] using this
  · intro n m b f v w _ h hty
    cases n with
    | zero => cases h
    | succ n =>
      simp only [fieldConv] at h
      obtain ⟨ctx', hctx⟩ : ∃ ctx' : Ctx, ctx' = { ctx with trusted := [], mapping := m } := ⟨_, rfl⟩
      rw [← hctx] at h
      have hcv' : ctx'.convert = true := by rw [hctx]; exact hcv
      have hoo' : ctx'.oo = true := by rw [hctx]; exact hoo
      have hval' : ctx'.validate = true := by rw [hctx]; exact hval
      have happ : ctx'.app = ctx.app := by rw [hctx]
      cases he : v.isEmpty with
      | true =>
        have := fieldConvF_empty he h
        subst this
        exact Or.inl he
      | false =>
        right
        have hcomp : f.ty.isCompound = true := by rcases hty with ⟨_, h⟩ | ⟨_, h⟩ <;> rw [h] <;> rfl
        have hcf := fieldConvF_compound (Or.inr hcv') he hcomp h
        have fin : ∀ k c raw, env.cls k = some c →
            newInstance (fieldConv env n) env ctx' c raw = .ok w →
            ∃ k d c, w = .inst k d ∧ env.cls k = some c ∧
              ∀ fd ∈ c.fields, ∀ g, Dict.get? c.validators fd.name = some g →
                ∀ w, Dict.get? d (.str fd.name) = some w → w ≠ .undef → ∃ mv, g mv d w ctx.app = .ok d := by
          intro k c raw hk hn
          obtain ⟨d, h1, h2⟩ := newInstance_passed hval' (hpure k c hk) hn
          rw [happ] at h2
          exact ⟨c.name, d, c, h1, by rw [hnames k c hk]; exact hk, h2⟩
        unfold convertF at hcf
        rcases hty with ⟨cls, hty⟩ | ⟨p, hty⟩
        · rw [hty] at hcf
          simp only [] at hcf
          unfold modelConv modelInto at hcf
          simp only [hcv', hoo', Bool.and_self, if_true] at hcf
          split at hcf
          · split at hcf
            · split at hcf
              · rename_i hk; exact fin _ _ _ hk hcf
              · cases hcf
            · cases hcf
          · split at hcf
            · rename_i hk; exact fin _ _ _ hk hcf
            · cases hcf
          · cases hcf
        · rw [hty] at hcf
          simp only [] at hcf
          unfold polyConv at hcf
          simp only [hval', Bool.not_true, Bool.false_and, Bool.false_eq_true, if_false] at hcf
          split at hcf
          · cases hcf
          · split at hcf
            · cases hcf
            · rename_i hk
              split at hcf
              · exact fin _ _ _ hk hcf
              · exact fin _ _ _ hk hcf
              · split at hcf
                · cases hcf
                · exact fin _ _ _ hk hcf

/-! ## Witnesses -/

namespace Samples

/-- `class Strict(Model): x = IntType(); def validate_x(...): raise ValidationError('no')` -/
def strictC : ClassDef where
  name := "Strict"
  fields := [{ name := "x", field := intF }]
  validators := [("x", fun _ _ _ _ => validErr "no")]
/-- `class Holder(Model): s = ModelType(Strict)` -/
def holder : ClassDef where
  name := "Holder"
  fields := [{ name := "s", field := .mk (.model "Strict") {} }]
/-- The class table of both. -/
def env2 : Env where
  cls k := if k = "Strict" then some strictC else if k = "Holder" then some holder else none
  isSub a b := a == b
  subs _ := []

end Samples

open Samples in
/-- **C21, counterexample** (functional API). `schematics.validate` without objects accepts data that the nested
model's own validator rejects, although validating the nested data directly fails. -/
theorem C21_counterexample_functional :
    runValidate env2 5 { conv := .val, validate := true } holder (.inst []) [(.str "s", .dict [(.str "x", .int 1)])] =
        .ok [(.str "s", .dict [(.str "x", .int 1)])] ∧
    Failed (runValidate env2 5 { conv := .val, validate := true } strictC (.inst []) [(.str "x", .int 1)]) :=
  ⟨rfl, ⟨_, _, rfl⟩⟩

open Samples in
/-- **C21, counterexample** (`convert=False`, as in `import_data(validate=True)`).  Validating an instance that
holds a nested instance crashes with `AttributeError` instead of validating it. -/
theorem C21_counterexample_convert_false :
    runValidate env2 5 { conv := .val, validate := true, convert := false, oo := true } holder
      (.inst [(.str "s", .inst "Strict" [(.str "x", .int 1)])]) [] = .error (.other "AttributeError") := rfl

/-! ## The hypotheses are met -/

open Samples in
/-- In object mode the nested validator's complaint is reported under `s.x`. -/
example : errorsOf (runValidate env2 5 vctx holder (.inst []) [(.str "s", .dict [(.str "x", .int 1)])]) =
    [(.str "s", .node [(.str "x", .msgs ["no"])])] := rfl

open Samples in
example := C20_model_validators env2 5 vctx strictC [] [(.str "x", .int 1)] (by unfold ClassDef.WF; decide)
  (by unfold DistinctExt; decide)
  (by intro nf h; simp only [strictC, List.mem_cons, List.not_mem_nil, or_false] at h; subst h; intro _ _ _ _ _ h; cases h)
  (by intro fd h; simp only [strictC, List.mem_cons, List.not_mem_nil, or_false] at h; subst h; rfl) rfl List.nodup_nil
  (not_crashed rfl) { name := "x", field := intF } (by simp [strictC]) _ rfl
open Samples in
example : Rejects strictC [] vctx.app [(.str "x", .int 1)] { name := "x", field := intF } (.msgs ["no"]) :=
  ⟨_, _, _, rfl, rfl, by simp, rfl, .field⟩
open Samples in
example := C20_each_runs_once_in_order { order with validators := ["note", "id"].map fun n => (n, recorder n) } ["note", "id"]
  (by simp) rfl [] .none goodData rfl
open Samples in
example := C21_nested_validators_run env 5 vctx order (.inst []) good goodData env_wf env_pure
  (fun k c h => by rcases env_cls h with ⟨rfl, rfl⟩ | ⟨rfl, rfl⟩ <;> rfl) order_wf (by intro nf h; cases h) (Or.inl rfl)
  rfl rfl rfl validate_good

end Verif
