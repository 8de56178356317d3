import Verif.Core.Instance
import Verif.Core.Deep
import Verif.Core.Stable
import Verif.Props.ModelValidators
import Verif.Props.Import3

/-!
# Lemmas about instances
-/
namespace Verif

theorem field?_some {c : ClassDef} {name : String} {fd : FieldDef} (h : c.field? name = some fd) :
    fd ∈ c.fields ∧ fd.name = name := by
  unfold ClassDef.field? at h
  exact ⟨List.mem_of_find?_eq_some h, by simpa using List.find?_some h⟩

theorem field?_of_mem {c : ClassDef} (hc : c.WF) {fd : FieldDef} (h : fd ∈ c.fields) : c.field? fd.name = some fd := by
  cases hf : c.field? fd.name with
  | none =>
    unfold ClassDef.field? at hf
    rw [List.find?_eq_none] at hf
    exact absurd (hf fd h) (by simp)
  | some fd' =>
    obtain ⟨h1, h2⟩ := field?_some hf
    rw [name_inj hc h1 h h2]

/-- All layers are proper dicts. -/
structure Inst.WF (I : Inst) : Prop where
  raw : I.raw.Nodup
  converted : I.converted.Nodup
  valid : I.valid.Nodup
  stale : ∀ d, I.stale = some d → d.Nodup

theorem Inst.content_get {I : Inst} (h : I.WF) (k : Key) : Dict.get? I.content k = I.lookup k := by
  unfold Inst.content Inst.lookup
  rw [Dict.get?_update _ _ h.raw, Dict.get?_update _ _ h.converted]
  cases Dict.get? I.raw k <;> simp
  cases Dict.get? I.converted k <;> simp

theorem Inst.content_nodup {I : Inst} (h : I.WF) : I.content.Nodup :=
  Dict.nodup_update (Dict.nodup_update h.valid _) _

/-- The view of a field that is neither computed nor settable. -/
theorem view_get {c : ClassDef} (hc : c.WF) {fd : FieldDef} (hfd : fd ∈ c.fields) (hs : fd.fset = none)
    (hg : fd.fget = none) (d : Data) : Dict.get? (c.view d) (.str fd.name) = Dict.get? d (.str fd.name) := by
  unfold ClassDef.WF at hc
  unfold ClassDef.view
  generalize c.fields = fds at *
  have hkeys : ∀ (fds : List FieldDef) (k : Key), k ∈ Dict.keys (fds.filterMap fun fd =>
      if fd.fset.isSome then none
      else match Dict.get? d fd.name with
        | none => none
        | some v =>
          match fd.fget with
          | none => some ((.str fd.name : Key), v)
          | some g => (g d).map fun w => (.str fd.name, w)) → ∃ fd ∈ fds, k = .str fd.name := by
    intro fds k hk
    simp only [Dict.keys, List.mem_map, List.mem_filterMap] at hk
    obtain ⟨kv, ⟨fd', hm, heq⟩, rfl⟩ := hk
    refine ⟨fd', hm, ?_⟩
    split at heq
    · cases heq
    · split at heq
      · cases heq
      · split at heq
        · cases heq; rfl
        · simp only [Option.map_eq_some_iff] at heq
          obtain ⟨w, _, rfl⟩ := heq
          rfl
  induction fds with
  | nil => cases hfd
  | cons x fds ih =>
    simp only [List.map_cons, List.nodup_cons] at hc
    rcases List.mem_cons.1 hfd with rfl | hm
    · simp only [List.filterMap_cons, hs, hg, Option.isSome_none, Bool.false_eq_true, if_false]
      cases hd : Dict.get? d (Key.str fd.name) with
      | some v => simp [Dict.get?]
      | none =>
        simp only []
        rw [Dict.get?_eq_none]
        intro hk
        obtain ⟨fd', hm, heq⟩ := hkeys _ _ hk
        injection heq with heq
        exact hc.1 (List.mem_map.2 ⟨fd', hm, heq.symm⟩)
    · have hne : Key.str x.name ≠ Key.str fd.name := by
        intro heq
        injection heq with heq
        exact hc.1 (List.mem_map.2 ⟨fd, hm, heq.symm⟩)
      rw [List.filterMap_cons]
      split
      · exact ih hc.2 hm
      · rename_i kv hkv
        have : kv.1 = .str x.name := by
          split at hkv
          · cases hkv
          · split at hkv
            · cases hkv
            · split at hkv
              · cases hkv; rfl
              · simp only [Option.map_eq_some_iff] at hkv
                obtain ⟨w, _, rfl⟩ := hkv
                rfl
        obtain ⟨k, v⟩ := kv
        simp only [] at this
        subst this
        rw [Dict.get?_cons, if_neg hne]
        exact ih hc.2 hm

/-! ## The pending raw layer -/

theorem afterConvert_raw (env : Env) (n : Nat) (ctx : Ctx) (c : ClassDef) (I : Inst) (raw : Data) :
    (I.afterConvert env n ctx c raw).raw = [] := by
  unfold Inst.afterConvert
  simp only []
  split
  · split <;> rfl
  · rfl

theorem afterConvert_valid (env : Env) (n : Nat) (ctx : Ctx) (c : ClassDef) (I : Inst) (raw : Data) :
    (I.afterConvert env n ctx c raw).valid = I.valid ∧ (I.afterConvert env n ctx c raw).stale = I.stale := by
  unfold Inst.afterConvert
  simp only []
  split
  · split <;> exact ⟨rfl, rfl⟩
  · exact ⟨rfl, rfl⟩

theorem instValidate_raw {env : Env} {n : Nat} {c : ClassDef} {I : Inst} {ctx : Ctx} (h : I.raw = []) :
    (instValidate env n c I ctx).2.raw = [] := by
  unfold instValidate
  split
  · exact h
  · unfold instConvert
    simp only []
    split
    · rename_i heq
      injection heq with _ h2
      subst h2
      exact afterConvert_raw ..
    · rename_i heq
      injection heq with _ h2
      subst h2
      exact afterConvert_raw ..
    · rename_i heq
      injection heq with _ h2
      subst h2
      exact afterConvert_raw ..

theorem setAttr_raw (env : Env) (n : Nat) (c : ClassDef) (I : Inst) (name : String) (v : Val) :
    (setAttr env n c I name v).2.raw = I.raw := by
  unfold setAttr
  repeat' split
  all_goals rfl

theorem instImport_raw {env : Env} {n : Nat} {c : ClassDef} {I : Inst} {raw : Data} {ctx : Ctx} :
    (instImport env n c I raw ctx).2.raw = [] := by
  unfold instImport
  cases h : instConvert env n c I raw { ctx with trusted := c.view I.content } with
  | mk r I1 =>
    have hr : I1.raw = [] := by
      unfold instConvert at h
      injection h with _ h2
      rw [← h2]
      exact afterConvert_raw ..
    cases r with
    | error e => exact hr
    | ok d =>
      simp only []
      split
      · exact instValidate_raw (by simpa using hr)
      · exact hr

theorem instSerialize_raw {env : Env} {n : Nat} {c : ClassDef} {I : Inst} {ectx : ECtx} (h : I.raw = []) :
    (instSerialize env n c I ectx).2.raw = [] := by
  unfold instSerialize
  simp only []
  cases hv : instValidate env n c I { defaults := true, validate := true } with
  | mk r I1 =>
    have hr : I1.raw = [] := by
      have := instValidate_raw (env := env) (n := n) (c := c) (ctx := { defaults := true, validate := true }) h
      rw [hv] at this
      exact this
    cases r with
    | ok u => cases hE : instExport env n c I1 ectx <;> simp [hE, hr]
    | error e =>
      cases e with
      | data es p => cases hE : instExport env n c I1 ectx <;> simp [hE, hr]
      | _ => simpa using hr

theorem run_raw {env : Env} {n : Nat} {c : ClassDef} {I : Inst} (op : Op) (h : I.raw = []) :
    (op.run env n c I).raw = [] := by
  cases op with
  | set name v => exact (setAttr_raw ..).trans h
  | del name =>
    simp only [Op.run, delAttr, Inst.delete]
    repeat' split
    all_goals simp [h, Dict.erase]
  | validate ctx => exact instValidate_raw h
  | importData raw ctx => exact instImport_raw
  | serialize ectx => exact instSerialize_raw h

/-- An instance created without `lazy=True` has no pending raw data. -/
theorem instInit_raw {env : Env} {n : Nat} {c : ClassDef} {raw trusted : Data} {ctx : Ctx} {I : Inst}
    (h : instInit env n c raw trusted false ctx = .ok I) : I.raw = [] := by
  unfold instInit at h
  simp only [Bool.false_eq_true, if_false] at h
  cases hc : instConvert env n c { valid := trusted } raw { ctx with trusted := trusted } with
  | mk r I1 =>
    rw [hc] at h
    have hr : I1.raw = [] := by
      unfold instConvert at hc
      injection hc with _ h2
      rw [← h2]
      exact afterConvert_raw ..
    cases r with
    | error e => cases h
    | ok d =>
      simp only [] at h
      split at h
      · split at h
        · rename_i I3 heq
          injection h with h
          subst h
          have := instValidate_raw (env := env) (n := n) (c := c) (I := { I1 with converted := d })
            (ctx := { partial_ := ctx.partial_, app := ctx.app, init := ctx.init, defaults := ctx.defaults }) hr
          rw [heq] at this
          exact this
        · cases h
      · injection h with h
        subst h
        exact hr

/-! ## The layers stay proper dicts -/

/-- Model-level validators are given a dict and return a dict (distinct keys). -/
def NodupValidators (c : ClassDef) : Prop :=
  ∀ nf ∈ c.validators, ∀ mv d v app d', nf.2 mv d v app = .ok d' → d.Nodup → d'.Nodup

theorem PureValidators.nodup {c : ClassDef} (h : PureValidators c) : NodupValidators c := by
  intro nf hnf mv d v app d' hd hn
  rw [h nf hnf mv d v app d' hd]
  exact hn

theorem modelValidators_nodup {c : ClassDef} (hp : NodupValidators c) {mv : Data} {app : Val} {fds : List FieldDef}
    {d : Data} {es : Errs} {inv : List String} {d' : Data}
    (h : modelValidators c mv app fds d = .ok (es, inv, d')) (hd : d.Nodup) : d'.Nodup := by
  induction fds generalizing d es inv d' with
  | nil => cases h; exact hd
  | cons fd fds ih =>
    simp only [modelValidators] at h
    split at h
    · exact ih h hd
    · rename_i f hf
      have hf' : Dict.get? c.validators fd.name = some f := by
        split at hf
        · cases hf
        · exact hf
      split at h
      · rename_i d1 hd1
        exact ih h (hp _ (Dict.mem_of_get? hf') _ _ _ _ _ hd1 hd)
      · split at h
        · cases h
        · cases hm : modelValidators c mv app fds d with
          | error e => rw [hm] at h; cases h
          | ok r =>
            obtain ⟨es1, inv1, d1⟩ := r
            rw [hm] at h
            injection h with h
            injection h with _ h
            injection h with _ h
            subst h
            exact ih hm hd

theorem popAll_nodup {ns : List String} {d d' : Data} (h : popAll ns d = .ok d') (hd : d.Nodup) : d'.Nodup := by
  induction ns generalizing d with
  | nil => cases h; exact hd
  | cons x ns ih =>
    simp only [popAll] at h
    split at h
    · exact ih h (Dict.nodup_erase hd _)
    · cases h

theorem validateModel_data_nodup {c : ClassDef} (hp : NodupValidators c) {mv : Data} {app : Val} {d d' : Data} {es : Errs}
    (h : validateModel c mv app d = .ok (es, d')) (hd : d.Nodup) : d'.Nodup := by
  unfold validateModel at h
  split at h
  · cases h
  · rename_i es1 inv d1 hm
    split at h
    · cases h
    · rename_i d2 h2
      injection h with h
      injection h with _ h
      subst h
      exact popAll_nodup h2 (modelValidators_nodup hp hm hd)

theorem runImport_nodup {env : Env} {n : Nat} {ctx : Ctx} {c : ClassDef} (hc : c.WF) (ht : ctx.trusted.Nodup)
    {mu : Mut} {raw : Data} : (dataOf (runImport env n ctx c mu raw)).Nodup := by
  unfold runImport importLoop
  split
  · cases hm : runMutate (fieldConv env n) ctx c mu raw with
    | error e =>
      cases e with
      | data es p => exact absurd hm (runMutate_noData es p)
      | _ => exact List.nodup_nil
    | ok m => exact importBody_data_nodup hc ht
  · exact importBody_data_nodup hc ht

theorem runValidate_nodup {env : Env} {n : Nat} {ctx : Ctx} {c : ClassDef} (hc : c.WF) (hp : NodupValidators c)
    (ht : ctx.trusted.Nodup) {mu : Mut} {raw : Data} : (dataOf (runValidate env n ctx c mu raw)).Nodup := by
  unfold runValidate validateFn
  cases hm : runMutate (fieldConv env n) ctx c mu raw with
  | error e =>
    cases e with
    | data es p => exact absurd hm (runMutate_noData es p)
    | _ => exact List.nodup_nil
  | ok m =>
    simp only []
    have hb := importBody_data_nodup (rec := fieldConv env n) (env := env) (raw := m.raw) (errs0 := m.errs) hc ht
    have key : ∀ (es0 : Errs) (d : Data), d.Nodup → Dict.Nodup (dataOf (match validateModel c m.data ctx.app d with
        | .error e => .error e
        | .ok (es2, d') =>
          let es' := es0.update es2
          if es'.isEmpty then .ok d' else .error (.data es' d'))) := by
      intro es0 d hd
      cases hv : validateModel c m.data ctx.app d with
      | error e =>
        cases e with
        | data es p => exact absurd hv (validateModel_noData es p)
        | _ => exact List.nodup_nil
      | ok r =>
        obtain ⟨es2, d'⟩ := r
        have := validateModel_data_nodup hp hv hd
        simp only []
        split <;> exact this
    cases hi : importBody (fieldConv env n) env ctx c m.raw m.errs with
    | ok d => rw [hi] at hb; exact key _ _ hb
    | error e =>
      rw [hi] at hb
      cases e with
      | data es p => exact key _ _ hb
      | _ => exact List.nodup_nil

theorem nodup_nil : Dict.Nodup ([] : Data) := List.nodup_nil

theorem setterWrites_nodup {env : Env} {n : Nat} {ctx : Ctx} {c : ClassDef} {raw conv : Data} (h : conv.Nodup) :
    (setterWrites env n ctx c raw conv).Nodup := Dict.nodup_update h _

/-- The setters of `_mutate` make exactly the assignments `setterSteps`, if none raises an unexpected exception. -/
theorem runSetters_steps {rec : Rec} {ctx : Ctx} {raw : Data} {fds : List FieldDef} :
    ∀ {es : Errs} {d : Data} {r : Errs × Data}, runSetters rec ctx raw true fds es d = .ok r → r.2 = d.update (setterSteps rec ctx raw fds) := by
  induction fds with
  | nil => intro es d r h; cases h; rfl
  | cons fd fds ih =>
    intro es d r h
    unfold runSetters at h
    unfold setterSteps
    simp only [] at h ⊢
    split
    · rename_i hu; rw [if_pos hu] at h; exact ih h
    · rename_i hu
      rw [if_neg hu] at h
      split
      · rename_i e he
        rw [he] at h
        simp only [] at h
        split
        · rename_i hc; rw [if_pos hc] at h; exact ih h
        · rename_i hc
          rw [if_neg hc] at h
          split
          · exact ih h
          · split at h
            · contradiction
            · cases h
      · rename_i w hw
        rw [hw] at h
        simp only [] at h
        have key : ∀ x : R Data, (match x with
              | .ok asg => runSetters rec ctx raw true fds es (if true then d.update asg else d)
              | .error e => if e.caught then runSetters rec ctx raw true fds (es.set (.str fd.extName) e.tree) d else
                match e with
                | .other "AttributeError" => runSetters rec ctx raw true fds es d
                | e => .error e) = .ok r → r.2 = d.update (match x with
              | .ok asg => asg ++ setterSteps rec ctx raw fds
              | .error e => if e.caught then setterSteps rec ctx raw fds else
                match e with
                | .other "AttributeError" => setterSteps rec ctx raw fds
                | _ => []) := by
          intro x hx
          cases x with
          | ok asg =>
            simp only [if_true] at hx ⊢
            rw [ih hx]
            unfold Dict.update
            rw [List.foldl_append]
          | error e =>
            simp only [] at hx ⊢
            split
            · rename_i hc; rw [if_pos hc] at hx; exact ih hx
            · rename_i hc
              rw [if_neg hc] at hx
              split
              · exact ih hx
              · split at hx
                · contradiction
                · cases hx
        exact key _ h

/-- Whether the setters run through does not depend on the data they write to. -/
theorem runSetters_through {rec : Rec} {ctx : Ctx} {raw : Data} {fds : List FieldDef} :
    ∀ {es es' : Errs} {d d' : Data} {r : Errs × Data}, runSetters rec ctx raw true fds es d = .ok r → ∃ r', runSetters rec ctx raw true fds es' d' = .ok r' := by
  induction fds with
  | nil => intro es es' d d' r h; exact ⟨_, rfl⟩
  | cons fd fds ih =>
    intro es es' d d' r h
    unfold runSetters at h ⊢
    simp only [] at h ⊢
    repeat' split at h
    all_goals first
      | cases h; done
      | simp_all only [if_true, if_false, Bool.false_eq_true]
        exact ih h

theorem copied_ran {env : Env} {n : Nat} {ctx : Ctx} {c : ClassDef} {raw content d : Data} {es : Errs} {r : Errs × Data}
    (h : runSetters (fieldConv env n) ctx raw true c.settable es d = .ok r) : copied env n ctx c raw content = c.view content := by
  obtain ⟨r', h'⟩ := runSetters_through (es' := []) (d' := []) h
  unfold copied
  rw [h']

theorem afterConvert_wf {env : Env} {n : Nat} {ctx : Ctx} {c : ClassDef} {I : Inst} {raw : Data} (h : I.WF) :
    (I.afterConvert env n ctx c raw).WF := by
  have hv := afterConvert_valid env n ctx c I raw
  refine ⟨?_, ?_, ?_, ?_⟩
  · rw [afterConvert_raw]; exact nodup_nil
  · unfold Inst.afterConvert
    simp only []
    split
    · split
      · exact Dict.nodup_update (setterWrites_nodup h.converted) _
      · exact setterWrites_nodup h.converted
    · exact h.converted
  · rw [hv.1]; exact h.valid
  · rw [hv.2]; exact h.stale

theorem setValid_wf {I : Inst} (h : I.WF) {d : Data} (hd : d.Nodup) : ({ I.setValid d with converted := [] } : Inst).WF := by
  refine ⟨h.raw, nodup_nil, hd, ?_⟩
  intro d' hd'
  simp only [Inst.setValid, Option.some.injEq] at hd'
  subst hd'
  cases hs : I.stale with
  | none => exact h.valid
  | some x => exact h.stale x hs

theorem instConvert_wf {env : Env} {n : Nat} {c : ClassDef} {I : Inst} {raw : Data} {ctx : Ctx} (hc : c.WF)
    (hp : NodupValidators c) (ht : ctx.trusted.Nodup) (h : I.WF) :
    (instConvert env n c I raw ctx).2.WF ∧ (dataOf (instConvert env n c I raw ctx).1).Nodup := by
  refine ⟨afterConvert_wf h, ?_⟩
  unfold instConvert
  simp only []
  split
  · exact runValidate_nodup (ctx := I.convertCtx ctx) hc hp ht
  · exact runImport_nodup (ctx := I.convertCtx ctx) hc ht

theorem instValidate_wf {env : Env} {n : Nat} {c : ClassDef} {I : Inst} {ctx : Ctx} (hc : c.WF)
    (hp : NodupValidators c) (h : I.WF) : (instValidate env n c I ctx).2.WF := by
  unfold instValidate
  split
  · exact h
  · have hw := instConvert_wf (env := env) (n := n) (I := I) (raw := []) (ctx := { ctx with validate := true, trusted := [] })
      hc hp nodup_nil h
    cases hi : instConvert env n c I [] { ctx with validate := true, trusted := [] } with
    | mk r I1 =>
      rw [hi] at hw
      cases r with
      | ok d => exact setValid_wf hw.1 hw.2
      | error e =>
        cases e with
        | data es p => exact setValid_wf hw.1 (Dict.nodup_update hw.1.valid _)
        | _ => exact ⟨hw.1.raw, nodup_nil, hw.1.valid, hw.1.stale⟩

theorem setAttr_wf {env : Env} {n : Nat} {c : ClassDef} {I : Inst} {name : String} {v : Val} (h : I.WF) :
    (setAttr env n c I name v).2.WF := by
  unfold setAttr
  repeat' split
  all_goals first
    | exact h
    | exact ⟨h.raw, Dict.nodup_update h.converted _, h.valid, h.stale⟩
    | exact ⟨h.raw, Dict.nodup_set h.converted _ _, h.valid, h.stale⟩

theorem delete_wf {I : Inst} {k : Key} (h : I.WF) : (I.delete k).2.WF := by
  unfold Inst.delete
  simp only []
  split
  · refine ⟨Dict.nodup_erase h.raw _, Dict.nodup_erase h.converted _, ?_, ?_⟩
    · simp only []
      split
      · exact h.valid
      · exact Dict.nodup_erase h.valid _
    · intro d hd
      simp only [Option.map_eq_some_iff] at hd
      obtain ⟨d0, h0, rfl⟩ := hd
      exact Dict.nodup_erase (h.stale _ h0) _
  · exact h

theorem instImport_wf {env : Env} {n : Nat} {c : ClassDef} {I : Inst} {raw : Data} {ctx : Ctx} (hc : c.WF)
    (hp : NodupValidators c) (h : I.WF) : (instImport env n c I raw ctx).2.WF := by
  unfold instImport
  have hw := instConvert_wf (env := env) (n := n) (I := I) (raw := raw) (ctx := { ctx with trusted := c.view I.content })
      hc hp (view_nodup hc _) h
  cases hi : instConvert env n c I raw { ctx with trusted := c.view I.content } with
  | mk r I1 =>
    rw [hi] at hw
    cases r with
    | error e => exact hw.1
    | ok d =>
      have h2 : ({ I1 with converted := I1.converted.update d } : Inst).WF :=
        ⟨hw.1.raw, Dict.nodup_update hw.1.converted _, hw.1.valid, hw.1.stale⟩
      simp only []
      split
      · exact instValidate_wf hc hp h2
      · exact h2

theorem instSerialize_wf {env : Env} {n : Nat} {c : ClassDef} {I : Inst} {ectx : ECtx} (hc : c.WF)
    (hp : NodupValidators c) (h : I.WF) : (instSerialize env n c I ectx).2.WF := by
  unfold instSerialize
  simp only []
  have hw := instValidate_wf (env := env) (n := n) (ctx := { defaults := true, validate := true }) hc hp h
  have hs := (afterConvert_wf (env := env) (n := n) (ctx := I.convertCtx { defaults := true, validate := true })
    (c := c) (raw := []) h).converted
  cases hv : instValidate env n c I { defaults := true, validate := true } with
  | mk r I1 =>
    rw [hv] at hw
    have key : (match instExport env n c I1 ectx with
      | .error e => ((.error e : R Data), I1)
      | .ok d => (.ok d, { I1 with converted :=
          (I.afterConvert env n (I.convertCtx { defaults := true, validate := true }) c []).converted })).2.WF := by
      split
      · exact hw
      · exact ⟨hw.raw, hs, hw.valid, hw.stale⟩
    cases r with
    | ok u => exact key
    | error e =>
      cases e with
      | data es p => exact key
      | _ => exact hw

theorem run_wf {env : Env} {n : Nat} {c : ClassDef} {I : Inst} (hc : c.WF) (hp : NodupValidators c) (op : Op) (h : I.WF) :
    (op.run env n c I).WF := by
  cases op with
  | set name v => exact setAttr_wf h
  | del name =>
    simp only [Op.run, delAttr]
    repeat' split
    all_goals first | exact h | exact delete_wf h
  | validate ctx => exact instValidate_wf hc hp h
  | importData raw ctx => exact instImport_wf hc hp h
  | serialize ectx => exact instSerialize_wf hc hp h

theorem instInit_wf {env : Env} {n : Nat} {c : ClassDef} {raw trusted : Data} {b : Bool} {ctx : Ctx} {I : Inst} (hc : c.WF)
    (hp : NodupValidators c) (hr : raw.Nodup) (ht : trusted.Nodup)
    (h : instInit env n c raw trusted b ctx = .ok I) : I.WF := by
  unfold instInit at h
  split at h
  · injection h with h
    subst h
    exact ⟨hr, nodup_nil, ht, by intro d hd; cases hd⟩
  · have h0 : ({ valid := trusted } : Inst).WF := ⟨nodup_nil, nodup_nil, ht, by intro d hd; cases hd⟩
    have hw := instConvert_wf (env := env) (n := n) (I := { valid := trusted }) (raw := raw)
      (ctx := { ctx with trusted := trusted }) hc hp ht h0
    cases hi : instConvert env n c { valid := trusted } raw { ctx with trusted := trusted } with
    | mk r I1 =>
      rw [hi] at hw h
      cases r with
      | error e => cases h
      | ok d =>
        have h2 : ({ I1 with converted := d } : Inst).WF := ⟨hw.1.raw, hw.2, hw.1.valid, hw.1.stale⟩
        simp only [] at h
        split at h
        · split at h
          · rename_i I3 heq
            injection h with h
            subst h
            have := instValidate_wf (env := env) (n := n)
              (ctx := { partial_ := ctx.partial_, app := ctx.app, init := ctx.init, defaults := ctx.defaults }) hc hp h2
            rw [heq] at this
            exact this
          · cases h
        · injection h with h
          subst h
          exact h2

/-! ## Reachable states -/

/-- The states of instances created by the constructor and changed by any history of public calls.
`eager` = created without `lazy=True`. -/
inductive Reachable (env : Env) (n : Nat) (c : ClassDef) (eager : Bool) : Inst → Prop
  | new {raw trusted : Data} {lazy_ : Bool} {ctx : Ctx} {I : Inst} (hr : raw.Nodup) (ht : trusted.Nodup)
      (he : eager = true → lazy_ = false) (h : instInit env n c raw trusted lazy_ ctx = .ok I) : Reachable env n c eager I
  | step {I : Inst} (op : Op) (h : Reachable env n c eager I) : Reachable env n c eager (op.run env n c I)

theorem Reachable.wf {env : Env} {n : Nat} {c : ClassDef} {b : Bool} {I : Inst} (hc : c.WF) (hp : NodupValidators c)
    (h : Reachable env n c b I) : I.WF := by
  induction h with
  | new hr ht _ h => exact instInit_wf hc hp hr ht h
  | step op _ ih => exact run_wf hc hp op ih

theorem Reachable.raw {env : Env} {n : Nat} {c : ClassDef} {I : Inst} (h : Reachable env n c true I) : I.raw = [] := by
  induction h with
  | new _ _ he h => rw [he rfl] at h; exact instInit_raw h
  | step op _ ih => exact run_raw op ih

end Verif
