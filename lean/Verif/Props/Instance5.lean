import Verif.Props.Instance3
import Verif.Props.FieldEntry

/-! # C37, C39, C40, C76 for any class

The operations of an instance that validate, for classes which may have calculated fields with getters and setters and `validate_<field>` methods that edit the data. -/
namespace Verif

/-! ## Specification -/

/-- No `validate_<field>` method of the class changes the entry `name` of the data. -/
def NotEdited (c : ClassDef) (name : String) : Prop :=
  ∀ kv ∈ c.validators, ∀ mv d w app d', kv.2 mv d w app = .ok d' → Dict.get? d' (.str name) = Dict.get? d (.str name)

/-- No setter of the class assigns the attribute `name`. -/
def NotAssigned (c : ClassDef) (name : String) : Prop :=
  ∀ fd ∈ c.fields, ∀ f, fd.fset = some f → ∀ v asg, f v = .ok asg → Key.str name ∉ asg.keys

/-- What may appear as the value of a field in serialized output: a value that passed the field's own validation and, if it has a `validate_<field>` method, was not refused by it; the field's default; the
value that the instance held as valid. -/
inductive Vouched (env : Env) (c : ClassDef) (I : Inst) (fd : FieldDef) (v : Val) : Prop
  | validated {ctx : Ctx} {x : Val} {mv d : Data} (hc : ctx.conv = .val) (hcv : ctx.convert = true) (hp : ctx.partial_ = false)
      (h : Answers env ctx fd x (.ok v)) (hd : Dict.get? d (.str fd.name) = some v) (hr : ∀ t, ¬ Rejects c mv ctx.app d fd t)
  | default (h : v = fd.field.o.default)
  | earlier (h : Dict.get? I.valid (.str fd.name) = some v)

/-! ## Lemmas -/

theorem TidyMethods.nodup {c : ClassDef} (h : TidyMethods c) : NodupValidators c :=
  fun nf hnf mv d v app d' hd hn => h nf hnf mv d v app d' hn hd

theorem ext_inj {c : ClassDef} (hx : DistinctExt c) {a b : FieldDef} (ha : a ∈ c.fields) (hb : b ∈ c.fields) (h : a.extName = b.extName) : a = b := by
  unfold DistinctExt at hx
  generalize c.fields = l at *
  induction l with
  | nil => cases ha
  | cons x l ih =>
    simp only [List.map_cons, List.nodup_cons] at hx
    rcases List.mem_cons.1 ha with rfl | h1 <;> rcases List.mem_cons.1 hb with rfl | h2
    · rfl
    · exact absurd (List.mem_map.2 ⟨b, h2, h.symm⟩) hx.1
    · exact absurd (List.mem_map.2 ⟨a, h1, h⟩) hx.1
    · exact ih hx.2 h1 h2

/-- What the methods do with one entry which they do not edit. -/
theorem run_entry {c : ClassDef} {mv : Data} {app : Val} {fds : List FieldDef} {d d' : Data} {rs : List (FieldDef × ErrTree)} (h : MethodsRun c mv app fds d d' rs)
    (hnd : (fds.map (·.name)).Nodup) {fd : FieldDef} (he : NotEdited c fd.name) :
    Dict.get? d' (.str fd.name) = Dict.get? d (.str fd.name) ∧
    (fd ∈ fds → ∃ d1, Dict.get? d1 (.str fd.name) = Dict.get? d (.str fd.name) ∧
      ((∃ t, (fd, t) ∈ rs ∧ Rejects c mv app d1 fd t) ∨ ((∀ t, (fd, t) ∉ rs) ∧ ∀ t, ¬ Rejects c mv app d1 fd t))) := by
  have hmem : ∀ {fds : List FieldDef} {d d' : Data} {rs : List (FieldDef × ErrTree)}, MethodsRun c mv app fds d d' rs → ∀ fd t, (fd, t) ∈ rs → fd ∈ fds :=
    fun h fd t hr => (run_fields h).subset (List.mem_map.2 ⟨_, hr, rfl⟩)
  induction h with
  | done => exact ⟨rfl, fun h => by cases h⟩
  | @pass fd' fds d d' rs hg hrest ih =>
    simp only [List.map_cons, List.nodup_cons] at hnd
    obtain ⟨ih1, ih2⟩ := ih hnd.2
    refine ⟨ih1, fun hfd => ?_⟩
    rcases List.mem_cons.1 hfd with rfl | hfd
    · refine ⟨d, rfl, Or.inr ⟨fun t ht => hnd.1 (List.mem_map.2 ⟨_, hmem hrest _ t ht, rfl⟩), ?_⟩⟩
      rintro t ⟨g, w, e, a, b, u, _⟩
      rcases hg with hg | hg
      · rw [a] at hg; cases hg
      · unfold rawValue at hg; rw [b] at hg; exact u hg
    · exact ih2 hfd
  | @accept fd' fds g w d d1 d' rs hg hw hu hr hrest ih =>
    simp only [List.map_cons, List.nodup_cons] at hnd
    obtain ⟨ih1, ih2⟩ := ih hnd.2
    have hk := he _ (Dict.mem_of_get? hg) _ _ _ _ _ hr
    refine ⟨ih1.trans hk, fun hfd => ?_⟩
    rcases List.mem_cons.1 hfd with rfl | hfd
    · refine ⟨d, rfl, Or.inr ⟨fun t ht => hnd.1 (List.mem_map.2 ⟨_, hmem hrest _ t ht, rfl⟩), ?_⟩⟩
      rintro t ⟨g', w', e, a, b, _, x, _⟩
      rw [hg] at a; cases a
      rw [hw] at b; cases b
      rw [hr] at x; cases x
    · obtain ⟨d2, h1, h2⟩ := ih2 hfd
      exact ⟨d2, h1.trans hk, h2⟩
  | @reject fd' fds d d' t rs hrej hrest ih =>
    simp only [List.map_cons, List.nodup_cons] at hnd
    obtain ⟨ih1, ih2⟩ := ih hnd.2
    refine ⟨ih1, fun hfd => ?_⟩
    rcases List.mem_cons.1 hfd with rfl | hin
    · exact ⟨d, rfl, Or.inl ⟨t, by simp, hrej⟩⟩
    · obtain ⟨d2, h1, h2⟩ := ih2 hin
      refine ⟨d2, h1, ?_⟩
      rcases h2 with ⟨u, h3, h4⟩ | ⟨h3, h4⟩
      · exact Or.inl ⟨u, by simp [h3], h4⟩
      · refine Or.inr ⟨fun u hu => ?_, h4⟩
        rcases List.mem_cons.1 hu with hu | hu
        · cases hu
          exact hnd.1 (List.mem_map.2 ⟨_, hin, rfl⟩)
        · exact h3 u hu

/-- One field after a validation of any class: its method refused, and it is reported and removed; or it holds what `Stored` says, and it is reported exactly when its input did not go through. -/
theorem validated_field {env : Env} {n : Nat} {ctx : Ctx} {c : ClassDef} {content raw : Data} (hc : c.WF) (hx : DistinctExt c) (hm : TidyMethods c)
    (hval : ctx.validate = true) (htr : ctx.trusted.Nodup) (hcr : ¬ Crashed (runValidate env n ctx c (.inst content) raw)) {fd : FieldDef} (hfd : fd ∈ c.fields)
    (hset : fd.fset = none) (he : NotEdited c fd.name) :
    ∃ ss content' raw', Prepared env ctx c True content raw ss content' raw' ∧
      (((∃ t, Dict.get? (errorsOf (runValidate env n ctx c (.inst content) raw)) (.str fd.extName) = some t) ∧
          Dict.get? (dataOf (runValidate env n ctx c (.inst content) raw)) (.str fd.name) = none) ∨
       ((∃ d, Dict.get? d (.str fd.name) = Dict.get? (dataOf (runValidate env n ctx c (.inst content) raw)) (.str fd.name) ∧ ∀ t, ¬ Rejects c content' ctx.app d fd t) ∧
          Stored env ctx raw' fd (Dict.get? (dataOf (runValidate env n ctx c (.inst content) raw)) (.str fd.name)) ∧
          (Dict.get? (errorsOf (runValidate env n ctx c (.inst content) raw)) (.str fd.extName) = none ↔ Goes env ctx raw' fd))) := by
  obtain ⟨ss, content', raw', d', rs, h1, hlen, himp, hicr, h2, h3, h4, h5⟩ := validate_run hc hx hm hval htr hcr
  have hsub := run_fields h2
  obtain ⟨hleft, hmeth⟩ := run_entry h2 hc he
  obtain ⟨d1, hd1, hcase⟩ := hmeth hfd
  refine ⟨ss, content', raw', h1, ?_⟩
  rcases hcase with ⟨t, ht, hrej⟩ | ⟨hno, hnr⟩
  · refine Or.inl ⟨⟨t, ?_⟩, ?_⟩
    · rw [h3, (entry_iff hx hsub _ _).2 ⟨fd, ht, rfl⟩]; rfl
    · rw [h4, if_pos (List.mem_map.2 ⟨_, ht, rfl⟩)]
  · have hnk : Key.str fd.name ∉ rs.map (fun q => Key.str q.1.name) := by
      intro h
      obtain ⟨⟨fd', t⟩, hq, hn⟩ := List.mem_map.1 h
      have hfd' : fd' ∈ c.fields := hsub.subset (List.mem_map.2 ⟨_, hq, rfl⟩)
      injection hn with hn
      cases name_inj hc hfd' hfd hn
      exact hno t hq
    have hdat : Dict.get? (dataOf (runValidate env n ctx c (.inst content) raw)) (.str fd.name) =
        Dict.get? (dataOf (runImport env n ctx c (.inst content) raw)) (.str fd.name) := by
      rw [h4, if_neg hnk, hleft]
    have hfi : FieldInput env ctx c (.inst content) raw raw' := by
      unfold FieldInput; rw [hval]; exact ⟨ss, content', h1⟩
    refine Or.inr ⟨⟨d1, by rw [hdat, hd1], hnr⟩, ?_, ?_⟩
    · rw [hdat]; exact run_stored hc hicr hfi hfd (Or.inl hval)
    · have hent : Dict.get? (entries rs) (.str fd.extName) = none := by
        refine entry_none hx hsub _ ?_
        rintro ⟨fd', t⟩ hq hk
        have hfd' : fd' ∈ c.fields := hsub.subset (List.mem_map.2 ⟨_, hq, rfl⟩)
        injection hk with hk
        cases ext_inj hx hfd' hfd hk.symm
        exact hno t hq
      rw [h3, hent]
      have hnc : NoCrash (importBody (fieldConv env n) env ctx c raw' (setterErrors (settables c) ss [])) := by
        rw [← himp]
        intro e he
        refine Classical.byContradiction fun hcc => hicr ⟨e, he, ?_⟩
        rintro es p rfl; exact hcc rfl
      obtain ⟨hn0, _, _⟩ := body_setters hc hx hlen hnc
      have hsplit := (importBody_split (fieldConv env n) env ctx c hc raw' (setterErrors (settables c) ss [])).2.2 (by rw [← himp]; exact hicr)
      have hse : Dict.get? (setterErrors (settables c) ss []) (.str fd.extName) = none := by
        cases hg : Dict.get? (setterErrors (settables c) ss []) (.str fd.extName) with
        | none => rfl
        | some u =>
          rcases (setterErrors_get (settables c) ss hlen (settable_distinct hx) [] (fun fd _ => rfl) _ u).1 hg with ⟨fd', hz, hk⟩ | hk
          · have hin := (List.of_mem_zip hz).1
            unfold settables at hin
            rw [List.mem_filter] at hin
            injection hk with hk
            cases ext_inj hx hin.1 hfd hk.symm
            rw [hset] at hin; cases hin.2
          · cases hk
      rw [← goes_iff hc hx hval hn0 hfd, himp, hsplit.2, hse]
      simp

theorem setters_keep {fds : List FieldDef} {env : Env} {ctx : Ctx} {raw content : Data} {ss : List SetterResult} {name : String} (h : All2 (SetterActs env ctx raw) fds ss)
    (hn : ∀ fd ∈ fds, ∀ f, fd.fset = some f → ∀ v asg, f v = .ok asg → Key.str name ∉ asg.keys) :
    Dict.get? (afterSetters content ss) (.str name) = Dict.get? content (.str name) := by
  induction h generalizing content with
  | nil => rfl
  | @cons fd r fds rs ha _ ih =>
    have hn' : ∀ fd ∈ fds, ∀ f, fd.fset = some f → ∀ v asg, f v = .ok asg → Key.str name ∉ asg.keys := fun fd h => hn fd (by simp [h])
    cases r with
    | nothing => exact ih hn'
    | refuses t => exact ih hn'
    | assigns asg =>
      refine (ih hn').trans (Dict.get?_update_none _ _ ?_)
      cases ha with
      | assigns _ _ _ hf hv => exact hn fd (by simp) _ hf _ _ hv

theorem steps_keep {rec : Rec} {ctx : Ctx} {raw : Data} {name : String} {fds : List FieldDef}
    (hn : ∀ fd ∈ fds, ∀ f, fd.fset = some f → ∀ v asg, f v = .ok asg → Key.str name ∉ asg.keys) : Key.str name ∉ Dict.keys (setterSteps rec ctx raw fds) := by
  induction fds with
  | nil => intro h; cases h
  | cons fd fds ih =>
    have ih := ih fun x hx => hn x (List.mem_cons_of_mem _ hx)
    unfold setterSteps
    simp only []
    split
    · exact ih
    split
    · split
      · exact ih
      · split
        · exact ih
        · intro h; cases h
    · split
      · rename_i asg ha
        intro h
        unfold Dict.keys at h ih
        rw [List.map_append, List.mem_append] at h
        rcases h with h | h
        · cases hf : fd.fset with
          | none => rw [hf] at ha; cases ha; cases h
          | some f => rw [hf] at ha; exact hn fd (by simp) f hf _ _ ha h
        · exact ih h
      · split
        · exact ih
        · split
          · exact ih
          · intro h; cases h

theorem writes_keep {env : Env} {n : Nat} {ctx : Ctx} {c : ClassDef} {name : String} (hn : NotAssigned c name) (raw conv : Data) :
    Dict.get? (setterWrites env n ctx c raw conv) (.str name) = Dict.get? conv (.str name) :=
  Dict.get?_update_none _ _ (steps_keep fun fd h => hn fd (List.mem_filter.1 h).1)

/-- If the validation did not end with an unexpected exception, all setters ran. -/
theorem copied_view {env : Env} {n : Nat} {ctx : Ctx} {c : ClassDef} {content raw : Data} (hcr : ¬ Crashed (runValidate env n ctx c (.inst content) raw)) (x : Data) :
    copied env n ctx c raw x = c.view x := by
  cases hs : runSetters (fieldConv env n) ctx raw true c.settable [] content with
  | error e =>
    refine absurd ⟨e, (by simp only [runValidate, validateFn, runMutate, hs]), ?_⟩ hcr
    rintro es p rfl
    have := runSetters_crash hs; cases this
  | ok r => exact copied_ran hs

/-- The input which a plain field sees when an instance is validated is the field's present value, if it has one, else the value given. -/
theorem input_present {env : Env} {ctx : Ctx} {c : ClassDef} {content raw content' raw' : Data} {ss : List SetterResult} (hc : c.WF)
    (h : Prepared env ctx c True content raw ss content' raw') {fd : FieldDef} (hfd : Plain c fd) (hn : NotAssigned c fd.name) {x : Val} (hx : x ≠ .undef)
    (hg : (Dict.get? content (.str fd.name)).or (Dict.get? raw (.str fd.name)) = some x) : Supplies raw' ctx.mapping fd x := by
  refine .own ?_ hx
  rw [h.completed trivial, Dict.get?_update _ _ (view_nodup hc _), view_get hc hfd.mem hfd.set hfd.get, h.after,
    setters_keep h.acts fun fd h => hn fd (List.mem_filter.1 h).1, hg]

/-- A plain field with the value `x`, not named in the error, after a validation. -/
theorem run_value {env : Env} {n : Nat} {ctx : Ctx} {c : ClassDef} {content raw : Data} (hc : c.WF) (hx : DistinctExt c) (hm : TidyMethods c)
    (hval : ctx.validate = true) (htr : ctx.trusted.Nodup) (hcr : ¬ Crashed (runValidate env n ctx c (.inst content) raw)) {fd : FieldDef} (hfd : Plain c fd)
    (he : NotEdited c fd.name) (hna : NotAssigned c fd.name) (hno : Dict.get? (errorsOf (runValidate env n ctx c (.inst content) raw)) (.str fd.extName) = none) {x : Val}
    (hu : x ≠ .undef) (hg : (Dict.get? content (.str fd.name)).or (Dict.get? raw (.str fd.name)) = some x) :
    ∃ w, Answers env ctx fd x (.ok w) ∧
      Dict.get? (dataOf (runValidate env n ctx c (.inst content) raw)) (.str fd.name) = if w.isUndef then Dict.get? ctx.trusted (.str fd.name) else some w := by
  obtain ⟨ss, content', raw', hprep, hcase⟩ := validated_field hc hx hm hval htr hcr hfd.mem hfd.set he
  have hsup := input_present hc hprep hfd hna hu hg
  rcases hcase with ⟨⟨t, ht⟩, _⟩ | ⟨_, hst, hgo⟩
  · rw [ht] at hno; cases hno
  have htaken : Taken ctx raw' fd x := .supplied hsup
  obtain ⟨m, w, hw⟩ : ∃ m w, fieldConv env m (innerCtx env ctx fd) true fd.field x = .ok w := by
    rcases hgo.1 hno with hg | ⟨m, w, hg⟩
    · exact absurd (taken_iff.1 htaken).1 hg
    · rw [← (taken_iff.1 htaken).2] at hg; exact ⟨m, w, hg⟩
  refine ⟨w, ⟨m, hw⟩, ?_⟩
  by_cases hwu : w = .undef
  · subst hwu
    exact stored_det (.undefined htaken ⟨m, hw⟩) hst
  · rw [isUndef_false hwu]
    exact stored_det (.converted htaken ⟨m, hw⟩ hwu) hst

/-- A validation that really ran and did not crash. -/
theorem validate_outcome {env : Env} {n : Nat} {c : ClassDef} {I I' : Inst} (hraw : I.raw = []) {ctx : Ctx} {r : R Unit}
    (hrun : (I.converted.isEmpty && ctx.partial_) = false) (hr : r = .ok () ∨ ∃ es p, r = .error (.data es p)) (h : instValidate env n c I ctx = (r, I')) :
    ∃ k : Ctx, k = I.convertCtx { ctx with validate := true, trusted := [] } ∧ I'.raw = [] ∧ I'.converted = [] ∧
      ((∃ d, r = .ok () ∧ runValidate env n k c (.inst I.content) I.converted = .ok d ∧ I'.valid = d) ∨
       ∃ es p, r = .error (.data es p) ∧ runValidate env n k c (.inst I.content) I.converted = .error (.data es p) ∧ I'.valid = I.valid.update p) := by
  refine ⟨_, rfl, ?_⟩
  unfold instValidate at h
  rw [hrun] at h
  simp only [Bool.false_eq_true, if_false] at h
  unfold instConvert at h
  simp only [if_true] at h
  have hI : ({ I with raw := [] } : Inst) = I := by cases I; simp_all
  have hsrc : I.source [] = I.converted := by simp [Inst.source, hraw]
  rw [hI, hsrc] at h
  have hst := afterConvert_valid env n (I.convertCtx { ctx with validate := true, trusted := [] }) c I []
  have hrw := afterConvert_raw env n (I.convertCtx { ctx with validate := true, trusted := [] }) c I []
  generalize (I.afterConvert env n (I.convertCtx { ctx with validate := true, trusted := [] }) c []) = I1 at *
  cases hrr : runValidate env n (I.convertCtx { ctx with validate := true, trusted := [] }) c (.inst I.content) I.converted with
  | ok d =>
    rw [hrr] at h
    simp only [] at h
    injection h with h1 h2
    subst h2
    exact ⟨hrw, rfl, Or.inl ⟨d, h1.symm, rfl, rfl⟩⟩
  | error e =>
    rw [hrr] at h
    cases e with
    | data es p =>
      simp only [] at h
      injection h with h1 h2
      subst h2
      exact ⟨hrw, rfl, Or.inr ⟨es, p, h1.symm, rfl, by simp only [Inst.setValid]; rw [hst.1]⟩⟩
    | _ =>
      simp only [] at h
      injection h with h _
      subst h
      rcases hr with hr | ⟨_, _, hr⟩ <;> cases hr

theorem looked_taken {ctx : Ctx} {raw : Data} {fd : FieldDef} (h : Looked ctx raw fd) : Taken ctx raw fd (fillValue ctx fd (inputValue raw ctx.mapping fd)) :=
  taken_iff.2 ⟨h, rfl⟩

/-- A field which is no model, without default, whose input did not go through, gets no entry. -/
theorem refused_none {env : Env} {ctx : Ctx} {raw : Data} {fd : FieldDef} {o : Option Val} (htr : ctx.trusted = []) (hdef : ctx.defaults = false)
    (hnm : fd.field.NotModel) (hst : Stored env ctx raw fd o) (hg : ¬ Goes env ctx raw fd) : o = none := by
  have good : ∀ v w, Taken ctx raw fd v → Answers env ctx fd v (.ok w) → False := by
    rintro v w ht ⟨m, hm⟩
    exact hg (Or.inr ⟨m, w, by rw [← (taken_iff.1 ht).2]; exact hm⟩)
  cases hst with
  | kept _ h => rw [htr] at h; cases h
  | converted ht ha _ => exact absurd (good _ _ ht ha) id
  | undefined ht ha => exact absurd (good _ _ ht ha) id
  | partialData ht ha => obtain ⟨m, hm⟩ := ha; exact absurd hm (fieldConv_noData hnm _ _ _)
  | fallback _ _ _ _ h _ => rw [hdef] at h; cases h
  | refused _ _ _ _ _ => rw [htr]; rfl

/-! ## The theorems -/

/-- **C39** (any class, strict mode or not).  On every instance created without `lazy=True`, after any history: if `m.validate()` raises `DataError`, a field which is neither calculated nor a model and which is
named in the error reads afterwards exactly its last validated value, and is undefined if it had none.  Setters may assign it; no `validate_<field>` method may rewrite it. -/
theorem C39_any_class (env : Env) (n : Nat) (c : ClassDef) (hc : c.WF) (hx : DistinctExt c) (hm : TidyMethods c) (I I' : Inst) (hI : Reachable env n c true I) (ctx : Ctx)
    (hdef : ctx.defaults = false) (es : Errs) (p : Data) (h : instValidate env n c I ctx = (.error (.data es p), I')) (fd : FieldDef) (hfd : Plain c fd)
    (hnm : fd.field.NotModel) (hed : NotEdited c fd.name) (he : (Dict.get? es (.str fd.extName)).isSome) :
    getAttr c I' fd.name = definedOr (Dict.get? I.valid (.str fd.name)) := by
  have hrun : (I.converted.isEmpty && ctx.partial_) = false := by
    cases hb : (I.converted.isEmpty && ctx.partial_) with
    | false => rfl
    | true =>
      unfold instValidate at h
      rw [hb] at h
      simp only [if_true] at h
      injection h with h; cases h
  obtain ⟨k, hk, h1, h2, h3⟩ := validate_outcome hI.raw hrun (Or.inr ⟨es, p, rfl⟩) h
  rcases h3 with ⟨d, h4, _⟩ | ⟨es', p', h4, hr, h5⟩
  · cases h4
  cases h4
  have hk1 : k.validate = true ∧ k.trusted = [] ∧ k.defaults = false := by rw [hk]; exact ⟨rfl, rfl, hdef⟩
  have hcr : ¬ Crashed (runValidate env n k c (.inst I.content) I.converted) := by
    rintro ⟨e, he', hne⟩
    rw [hr] at he'
    injection he' with he'
    exact hne _ _ he'.symm
  have hnd : p.Nodup := by
    have := runValidate_nodup (env := env) (n := n) (ctx := k) (c := c) (mu := .inst I.content) (raw := I.converted) hc hm.nodup (by rw [hk1.2.1]; exact nodup_nil)
    rw [hr] at this; exact this
  obtain ⟨ss, content', raw', _, hcase⟩ := validated_field hc hx hm hk1.1 (by rw [hk1.2.1]; exact nodup_nil) hcr hfd.mem hfd.set hed
  rw [hr] at hcase
  simp only [errorsOf, dataOf] at hcase
  have hpn : Dict.get? p (.str fd.name) = none := by
    rcases hcase with ⟨_, h6⟩ | ⟨_, hst, hgo⟩
    · exact h6
    · refine refused_none hk1.2.1 hk1.2.2 hnm hst fun hg => ?_
      rw [hgo.2 hg] at he; cases he
  rw [getAttr_plain hc hfd, lookup_noraw h1, h2, h5, Dict.get?_update _ _ hnd, hpn]
  rfl

/-- **C76, C39** (any class, both outcomes).  On every instance created without `lazy=True`, after any history: if `m.validate()` returns or raises `DataError`, and it has something to do, every field
which had a value `x` and is not named in the error was validated, and reads the result of validating `x`. -/
theorem C76_any_class (env : Env) (n : Nat) (c : ClassDef) (hc : c.WF) (hx : DistinctExt c) (hm : TidyMethods c) (I I' : Inst) (hI : Reachable env n c true I) (ctx : Ctx)
    (hdo : ctx.partial_ = false ∨ I.converted ≠ []) (r : R Unit) (h : instValidate env n c I ctx = (r, I')) (fd : FieldDef) (hfd : Plain c fd) (hed : NotEdited c fd.name)
    (hna : NotAssigned c fd.name) (hr : r = .ok () ∨ ∃ es p, r = .error (.data es p) ∧ Dict.get? es (.str fd.extName) = none) (x : Val) (hget : getAttr c I fd.name = .ok x) :
    ∃ w ctx', ctx'.conv = .val ∧ ctx'.convert = ctx.convert ∧ ctx'.app = ctx.app ∧ ctx'.partial_ = ctx.partial_ ∧ Answers env ctx' fd x (.ok w) ∧
      (w ≠ .undef → getAttr c I' fd.name = .ok w) := by
  have hwf := hI.wf hc hm.nodup
  have hrun : (I.converted.isEmpty && ctx.partial_) = false := by
    rcases hdo with h | h
    · simp [h]
    · cases hh : I.converted with
      | nil => exact absurd hh h
      | cons => rfl
  obtain ⟨k, hk, h1, h2, h3⟩ := validate_outcome hI.raw hrun (by rcases hr with h | ⟨es, p, h, _⟩; exact Or.inl h; exact Or.inr ⟨es, p, h⟩) h
  have hkk : k.conv = .val ∧ k.convert = ctx.convert ∧ k.app = ctx.app ∧ k.partial_ = ctx.partial_ ∧ k.trusted = [] ∧ k.validate = true := by
    rw [hk]; simp [Inst.convertCtx, hI.raw]
  obtain ⟨k1, k2, k3, k4, k5, k6⟩ := hkk
  have hcr : ¬ Crashed (runValidate env n k c (.inst I.content) I.converted) := by
    rintro ⟨e, he', hne⟩
    rcases h3 with ⟨d, _, hr, _⟩ | ⟨es, p, _, hr, _⟩ <;> rw [hr] at he' <;> cases he'
    exact hne _ _ rfl
  have hnd := runValidate_nodup (env := env) (n := n) (ctx := k) (c := c) (mu := .inst I.content) (raw := I.converted) hc hm.nodup (by rw [k5]; exact nodup_nil)
  have hnoerr : Dict.get? (errorsOf (runValidate env n k c (.inst I.content) I.converted)) (.str fd.extName) = none := by
    rcases h3 with ⟨d, _, hr', _⟩ | ⟨es, p, h4, hr', _⟩ <;> rw [hr']
    · rfl
    · rcases hr with hr | ⟨es', p', hr, hn⟩
      · rw [hr] at h4; cases h4
      · rw [hr] at h4; cases h4; exact hn
  rw [getAttr_plain hc hfd] at hget
  obtain ⟨hl, hu⟩ := definedOr_ok.1 hget
  obtain ⟨w, hw, hd⟩ := run_value hc hx hm k6 (by rw [k5]; exact nodup_nil) hcr hfd hed hna hnoerr hu (by rw [Inst.content_get hwf, hl]; rfl)
  refine ⟨w, k, k1, k2, k3, k4, hw, fun hwu => ?_⟩
  rw [isUndef_false hwu] at hd
  rw [getAttr_plain hc hfd, lookup_noraw h1, h2]
  refine definedOr_ok.2 ⟨?_, hwu⟩
  rcases h3 with ⟨d, _, hr', h5⟩ | ⟨es, p, _, hr', h5⟩
  · rw [h5]; rw [hr'] at hd; exact hd
  · rw [hr'] at hd hnd
    simp only [dataOf] at hd hnd
    rw [h5, Dict.get?_update _ _ hnd, hd]
    rfl

/-- **C40** (any class).  On every instance created without `lazy=True`, after any history: if `m.serialize()` succeeds, its output is the export of data in which the value of every field that is neither a
model nor settable passed validation, or is the field's default, or was valid before — never a pending value that was rejected.  Afterwards every field that is not calculated and not assigned by a setter reads
the value it had, pending or not. -/
theorem C40_any_class (env : Env) (n : Nat) (c : ClassDef) (hc : c.WF) (hx : DistinctExt c) (hm : TidyMethods c) (I I' : Inst) (hI : Reachable env n c true I) (ectx : ECtx) (out : Data)
    (h : instSerialize env n c I ectx = (.ok out, I')) :
    (∃ V, runExport env n ectx c (.inst V) = .ok out ∧
      ∀ fd ∈ c.fields, fd.fset = none → fd.field.NotModel → NotEdited c fd.name → ∀ v, Dict.get? V (.str fd.name) = some v → Vouched env c I fd v) ∧
    (∀ fd, Plain c fd → NotAssigned c fd.name → ∀ v, getAttr c I fd.name = .ok v → getAttr c I' fd.name = .ok v) := by
  have hwf := hI.wf hc hm.nodup
  unfold instSerialize at h
  simp only [] at h
  cases hv : instValidate env n c I { defaults := true, validate := true } with
  | mk r I1 =>
    have hcases : r = .ok () ∨ ∃ es p, r = .error (.data es p) := by
      rw [hv] at h
      cases r with
      | ok u => exact Or.inl rfl
      | error e =>
        cases e with
        | data es p => exact Or.inr ⟨_, _, rfl⟩
        | _ => simp only [] at h; injection h with h; cases h
    obtain ⟨k, hk, h1, h2, h3⟩ := validate_outcome hI.raw (by simp) hcases hv
    have hexp : instExport env n c I1 ectx = .ok out ∧
        I' = { I1 with converted := (I.afterConvert env n (I.convertCtx { defaults := true, validate := true }) c []).converted } := by
      rw [hv] at h
      rcases hcases with rfl | ⟨es, p, rfl⟩ <;>
      · simp only [] at h
        cases he : instExport env n c I1 ectx with
        | error e => rw [he] at h; injection h with h; cases h
        | ok d =>
          rw [he] at h
          simp only [] at h
          injection h with ha hb
          injection ha with ha
          subst ha
          exact ⟨rfl, hb.symm⟩
    have hcont : I1.content = I1.valid := by unfold Inst.content; rw [h1, h2]; rfl
    constructor
    · refine ⟨I1.valid, (by rw [← hcont]; exact hexp.1), ?_⟩
      intro fd hfd hset hnm hed v hget
      have hkk : k.conv = .val ∧ k.convert = true ∧ k.partial_ = false ∧ k.trusted = [] ∧ k.validate = true := by rw [hk]; exact ⟨rfl, rfl, rfl, rfl, rfl⟩
      obtain ⟨k1, k2, k3, k4, k5⟩ := hkk
      have hcr : ¬ Crashed (runValidate env n k c (.inst I.content) I.converted) := by
        rintro ⟨e, he', hne⟩
        rcases h3 with ⟨d, _, hr, _⟩ | ⟨es, p, _, hr, _⟩ <;> rw [hr] at he' <;> cases he'
        exact hne _ _ rfl
      have hnd := runValidate_nodup (env := env) (n := n) (ctx := k) (c := c) (mu := .inst I.content) (raw := I.converted) hc hm.nodup (by rw [k4]; exact nodup_nil)
      obtain ⟨ss, content', raw', hprep, hcase⟩ := validated_field hc hx hm k5 (by rw [k4]; exact nodup_nil) hcr hfd hset hed
      have hsrc : Dict.get? (dataOf (runValidate env n k c (.inst I.content) I.converted)) (.str fd.name) = some v ∨ Dict.get? I.valid (.str fd.name) = some v := by
        rcases h3 with ⟨d, _, hr, h5⟩ | ⟨es, p, _, hr, h5⟩
        · rw [hr]; rw [h5] at hget; exact Or.inl hget
        · rw [hr] at hnd ⊢
          simp only [dataOf] at hnd ⊢
          rw [h5, Dict.get?_update _ _ hnd] at hget
          cases hd : Dict.get? p (.str fd.name) with
          | some w => rw [hd] at hget; exact Or.inl hget
          | none => rw [hd] at hget; exact Or.inr hget
      rcases hsrc.symm with hsrc | hsrc
      · exact .earlier hsrc
      rcases hcase with ⟨_, hno⟩ | ⟨⟨d, hd, hnr⟩, hst, _⟩
      · rw [hno] at hsrc; cases hsrc
      rw [hsrc] at hst hd
      generalize hov : some v = o at hst
      cases hst with
      | kept _ h => rw [k4] at h; cases h
      | converted ht ha _ => cases hov; exact .validated k1 k2 k3 ha hd hnr
      | undefined _ _ => rw [k4] at hov; cases hov
      | partialData _ ha => obtain ⟨m, hm⟩ := ha; exact absurd hm (fieldConv_noData hnm _ _ _)
      | fallback _ _ _ _ _ _ => cases hov; exact .default rfl
      | refused _ _ _ _ _ => rw [k4] at hov; cases hov
    · intro fd hpl hna v hg
      have hcr : ¬ Crashed (runValidate env n k c (.inst I.content) I.converted) := by
        rintro ⟨e, he', hne⟩
        rcases h3 with ⟨d, _, hr, _⟩ | ⟨es, p, _, hr, _⟩ <;> rw [hr] at he' <;> cases he'
        exact hne _ _ rfl
      have hsrc0 : I.source [] = I.converted := by simp [Inst.source, hI.raw]
      rw [hk, ← hsrc0] at hcr
      rw [getAttr_plain hc hpl] at hg ⊢
      obtain ⟨hl, hu⟩ := definedOr_ok.1 hg
      refine definedOr_ok.2 ⟨?_, hu⟩
      rw [hexp.2, lookup_noraw (by exact h1)]
      simp only []
      have haft : Dict.get? (I.afterConvert env n (I.convertCtx { defaults := true, validate := true }) c []).converted (.str fd.name) = some v := by
        unfold Inst.afterConvert
        have : (I.convertCtx { defaults := true, validate := true }).validate = true := rfl
        rw [this]
        simp only [if_true, hI.raw, List.isEmpty_nil, Bool.true_and]
        rw [copied_view hcr, Dict.get?_update _ _ (view_nodup hc _), view_get hc hpl.mem hpl.set hpl.get]
        have hw2 : ∀ raw, ({ I with raw := [], converted := setterWrites env n (I.convertCtx { defaults := true, validate := true }) c raw I.converted } : Inst).WF :=
          fun raw => ⟨nodup_nil, setterWrites_nodup hwf.converted, hwf.valid, hwf.stale⟩
        rw [Inst.content_get (hw2 _), lookup_noraw rfl]
        simp only []
        rw [writes_keep hna]
        rw [lookup_noraw hI.raw] at hl
        rw [hl]; rfl
      rw [haft]
      rfl

/-- The two phases of `import_data(raw, validate=True)` for a plain field whose input in the first phase is `v`. -/
theorem import_value {env : Env} {n : Nat} {c : ClassDef} (hc : c.WF) (hx : DistinctExt c) (hm : TidyMethods c) {I I' : Inst} (hwf : I.WF) (hraw : I.raw = []) {raw : Data}
    (hne : raw ≠ []) {ctx : Ctx} (hv : ctx.validate = true) (h : instImport env n c I raw ctx = (.ok (), I')) {fd : FieldDef} (hfd : Plain c fd) (hed : NotEdited c fd.name)
    (hna : NotAssigned c fd.name) {v : Val} (hvu : v ≠ .undef) (hin : ((I.lookup (.str fd.name)).or (Dict.get? raw (.str fd.name))) = some v) :
    ∃ w1, Answers env (ivCtx1 c I ctx) fd v (.ok w1) ∧ ∀ x, (if w1.isUndef then I.lookup (.str fd.name) else some w1) = some x → x ≠ .undef →
      ∃ w2, Answers env ivCtx2 fd x (.ok w2) ∧ getAttr c I' fd.name = definedOr (if w2.isUndef then none else some w2) := by
  obtain ⟨cv, tr, mp, pa, st, ini, de, co, va, oo, re, app⟩ := ctx
  simp only [] at hv
  subst hv
  unfold instImport instConvert at h
  have hrawe : raw.isEmpty = false := by cases raw; exact absurd rfl hne; rfl
  have hsrc : I.source raw = raw := by
    unfold Inst.source
    rw [hraw, hrawe]; rfl
  have hI : ({ I with raw := [] } : Inst) = I := by cases I; simp_all
  simp only [if_true] at h
  rw [hsrc, hI] at h
  simp only [ivCtx1]
  generalize hk : I.convertCtx ⟨cv, c.view I.content, mp, pa, st, ini, de, co, true, oo, re, app⟩ = k at *
  have hk1 : k.validate = true ∧ k.trusted = c.view I.content := by rw [← hk]; exact ⟨rfl, rfl⟩
  have hafter : I.afterConvert env n k c raw = { I with raw := [], converted := setterWrites env n k c raw I.converted } := by
    unfold Inst.afterConvert
    simp only [hk1.1, if_true, hrawe, Bool.false_and, Bool.false_eq_true, if_false, hsrc]
  rw [hafter] at h
  cases hr : runValidate env n k c (.inst I.content) raw with
  | error e => simp [hr] at h
  | ok d =>
    simp only [hr] at h
    have htn : k.trusted.Nodup := by rw [hk1.2]; exact view_nodup hc _
    have hcr : ¬ Crashed (runValidate env n k c (.inst I.content) raw) := by
      rintro ⟨e, he, _⟩; rw [hr] at he; cases he
    obtain ⟨w1, hw1, hd1⟩ := run_value hc hx hm hk1.1 htn hcr hfd hed hna (by rw [hr]; rfl) hvu (by rw [Inst.content_get hwf]; exact hin)
    refine ⟨w1, hw1, fun x hx1 hxu => ?_⟩
    have hdn := runValidate_nodup (env := env) (n := n) (ctx := k) (c := c) (mu := .inst I.content) (raw := raw) hc hm.nodup htn
    rw [hr] at hd1 hdn
    simp only [dataOf] at hd1 hdn
    rw [hk1.2, view_get hc hfd.mem hfd.set hfd.get, Inst.content_get hwf, hx1] at hd1
    generalize hI2 : ({ I with raw := [], converted := (setterWrites env n k c raw I.converted).update d } : Inst) = I2 at *
    have hI2raw : I2.raw = [] := by rw [← hI2]
    have hwf2 : I2.WF := by
      rw [← hI2]
      exact ⟨nodup_nil, Dict.nodup_update (setterWrites_nodup hwf.converted) _, hwf.valid, hwf.stale⟩
    have hl2 : I2.lookup (.str fd.name) = some x := by
      rw [lookup_noraw hI2raw, ← hI2]
      simp only []
      rw [Dict.get?_update _ _ hdn, hd1]
      rfl
    obtain ⟨k2, hk2, h1, h2, h3⟩ := validate_outcome hI2raw (by simp) (Or.inl rfl) h
    have hctx2 : k2 = ivCtx2 := by
      rw [hk2]; simp [Inst.convertCtx, hI2raw, ivCtx2]
    rcases h3 with ⟨d2, _, hr2, h5⟩ | ⟨es, p, h4, _⟩
    · have hcr2 : ¬ Crashed (runValidate env n k2 c (.inst I2.content) I2.converted) := by
        rintro ⟨e, he, _⟩; rw [hr2] at he; cases he
      have hkv : k2.validate = true ∧ k2.trusted = [] := by rw [hctx2]; exact ⟨rfl, rfl⟩
      obtain ⟨w2, hw2, hd2⟩ := run_value hc hx hm hkv.1 (by rw [hkv.2]; exact nodup_nil) hcr2 hfd hed hna (by rw [hr2]; rfl) hxu (by rw [Inst.content_get hwf2, hl2]; rfl)
      rw [hctx2] at hw2
      refine ⟨w2, hw2, ?_⟩
      rw [hr2, hkv.2] at hd2
      simp only [dataOf] at hd2
      rw [getAttr_plain hc hfd, lookup_noraw h1, h2, h5, hd2]
      rfl
    · cases h4

/-- **C37** (the input is not used, any class).  On every instance created without `lazy=True`, after any history: for a field that is not calculated and already has a value, the value read after a
successful `import_data(raw, validate=True)` does not depend on `raw` at all. -/
theorem C37_counterexample_never_used_any_class (env : Env) (n : Nat) (c : ClassDef) (hc : c.WF) (hx : DistinctExt c) (hm : TidyMethods c) (I : Inst) (hI : Reachable env n c true I)
    (fd : FieldDef) (hfd : Plain c fd) (hed : NotEdited c fd.name) (hna : NotAssigned c fd.name) (old : Val) (hold : getAttr c I fd.name = .ok old) (ctx : Ctx)
    (hv : ctx.validate = true) (raw1 raw2 : Data) (h1 : raw1 ≠ []) (h2 : raw2 ≠ []) (I1 I2 : Inst) (hr1 : instImport env n c I raw1 ctx = (.ok (), I1))
    (hr2 : instImport env n c I raw2 ctx = (.ok (), I2)) : getAttr c I1 fd.name = getAttr c I2 fd.name := by
  have hwf := hI.wf hc hm.nodup
  rw [getAttr_plain hc hfd] at hold
  obtain ⟨hl, hu⟩ := definedOr_ok.1 hold
  have hin : ∀ raw : Data, ((I.lookup (.str fd.name)).or (Dict.get? raw (.str fd.name))) = some old := by intro raw; rw [hl]; rfl
  have hdet : ∀ {k : Ctx} {v w w' : Val}, Answers env k fd v (.ok w) → Answers env k fd v (.ok w') → w' = w := by
    rintro k v w w' ⟨a, ha⟩ ⟨b, hb⟩
    have := fieldConv_det ha hb (fun h => by cases h) (fun h => by cases h)
    injection this
  obtain ⟨w1, hw1, hx1⟩ := import_value hc hx hm hwf hI.raw h1 hv hr1 hfd hed hna hu (hin _)
  obtain ⟨w2, hw2, hx2⟩ := import_value hc hx hm hwf hI.raw h2 hv hr2 hfd hed hna hu (hin _)
  cases hdet hw1 hw2
  have hx : ∃ x, (if w1.isUndef then I.lookup (.str fd.name) else some w1) = some x ∧ x ≠ .undef := by
    split
    · exact ⟨old, hl, hu⟩
    · rename_i hwu
      exact ⟨w1, rfl, by rintro rfl; exact hwu rfl⟩
  obtain ⟨x, hx, hxu⟩ := hx
  obtain ⟨y1, hy1, hg1⟩ := hx1 x hx hxu
  obtain ⟨y2, hy2, hg2⟩ := hx2 x hx hxu
  cases hdet hy1 hy2
  rw [hg1, hg2]

/-- **C37** (new fields, any class).  For a field that is not calculated and has no value yet, given in `raw` under its own name, a successful `import_data(raw, validate=True)` stores the validated and
converted input (for types that do not replace the validation procedure). -/
theorem C37_new_field_any_class (env : Env) (n : Nat) (c : ClassDef) (hc : c.WF) (hx : DistinctExt c) (hm : TidyMethods c) (I I' : Inst) (hI : Reachable env n c true I)
    (fd : FieldDef) (hfd : Plain c fd) (hed : NotEdited c fd.name) (hna : NotAssigned c fd.name) (hnone : I.lookup (.str fd.name) = none) (ctx : Ctx) (hv : ctx.validate = true)
    (hcv : ctx.convert = true) (raw : Data) (v : Val) (hvu : v ≠ .undef) (hraw : Dict.get? raw (.str fd.name) = some v) (hov : fd.field.ty.override = none)
    (hr : instImport env n c I raw ctx = (.ok (), I')) :
    ∃ w ctx', ctx'.conv = .val ∧ ctx'.convert = true ∧ ctx'.app = ctx.app ∧ ctx'.partial_ = ctx.partial_ ∧ Answers env ctx' fd v (.ok w) ∧
      (w ≠ .undef → getAttr c I' fd.name = .ok w) := by
  have hne : raw ≠ [] := by rintro rfl; cases hraw
  obtain ⟨w1, hw1, hx2⟩ := import_value hc hx hm (hI.wf hc hm.nodup) hI.raw hne hv hr hfd hed hna hvu (by rw [hnone, hraw]; rfl)
  refine ⟨w1, ivCtx1 c I ctx, ?_, ?_, rfl, rfl, hw1, ?_⟩
  · simp [ivCtx1, Inst.convertCtx, hv]
  · simp [ivCtx1, Inst.convertCtx, hcv]
  intro hwu
  obtain ⟨w2, ⟨m, hw2⟩, hg⟩ := hx2 w1 (by rw [isUndef_false hwu]; rfl) hwu
  have hctx2 : (innerCtx env ivCtx2 fd).conv = .val ∧ (innerCtx env ivCtx2 fd).convert = false := by
    unfold innerCtx
    split <;> exact ⟨rfl, rfl⟩
  have hw21 : w2 = w1 := by
    generalize innerCtx env ivCtx2 fd = k at *
    cases m with
    | zero => cases hw2
    | succ n =>
      simp only [fieldConv, fieldConvF, hctx2.1] at hw2
      cases hrq : requiredFails k true fd.field w1 with
      | true => rw [hrq] at hw2; cases hw2
      | false =>
        rw [hrq] at hw2
        simp only [Bool.false_eq_true, if_false] at hw2
        split at hw2
        · cases hw2; rfl
        · simp only [validateF, hov, hctx2.2, Bool.false_eq_true, if_false] at hw2
          split at hw2
          · split at hw2
            · cases hw2
            · exact (finishValidation_ok hw2).1
          · exact (finishValidation_ok hw2).1
  rw [hg, hw21, isUndef_false hwu]
  exact definedOr_ok.2 ⟨rfl, hwu⟩

/-! ## The hypotheses are met -/

namespace Samples

/-- Items with a calculated field `twice`, a settable calculated field `code` whose setter assigns `tag`, and a method `validate_tag` which rewrites the tag. -/
def badge : ClassDef where
  name := "Badge"
  fields := [
    { name := "qty", field := .mk (.leaf intLeaf) { required := true } },
    { name := "tag", field := .mk (.leaf strLeaf) { serializedName := some "label" } },
    { name := "twice", field := .mk (.leaf intLeaf) {}, fget := some fun d => match rawValue d "qty" with | .int i => some (.int (i + i)) | _ => none },
    { name := "code", field := .mk (.leaf intLeaf) {}, fget := some fun _ => some (.int 9), fset := some fun _ => .ok [(.str "tag", .str "c")] }]
  validators := [("tag", fun _ d _ _ => .ok (d.set (.str "tag") (.str "t")))]

theorem badge_wf : badge.WF := by unfold ClassDef.WF; decide
theorem badge_distinct : DistinctExt badge := by unfold DistinctExt; decide
theorem badge_tidy : TidyMethods badge := by
  intro kv h mv d w app d' hd he
  simp only [badge, List.mem_cons, List.not_mem_nil, or_false] at h
  subst h
  cases he; exact Dict.nodup_set hd _ _
theorem badge_qty : Plain badge { name := "qty", field := .mk (.leaf intLeaf) { required := true } } := ⟨by simp [badge], rfl, rfl⟩
theorem badge_edits : NotEdited badge "qty" := by
  intro kv h mv d w app d' he
  simp only [badge, List.mem_cons, List.not_mem_nil, or_false] at h
  subst h
  cases he
  exact Dict.get?_set_ne _ _ (by decide)
theorem badge_assigns : NotAssigned badge "qty" := by
  intro fd h f hf v asg ha
  simp only [badge, List.mem_cons, List.not_mem_nil, or_false] at h
  rcases h with rfl | rfl | rfl | rfl <;> cases hf
  cases ha
  decide

/-- `Badge({'qty': 1, 'label': 'a'})` -/
def badgeI : Inst := { converted := [(.str "qty", .int 1), (.str "tag", .str "a"), (.str "code", .undef)] }
theorem badgeI_reachable : Reachable env 5 badge true badgeI :=
  .new (ctx := { partial_ := true }) (raw := [(.str "qty", .int 1), (.str "label", .str "a")]) (trusted := []) (by unfold Dict.Nodup; decide) (by unfold Dict.Nodup; decide) (fun _ => rfl) rfl
/-- `m.validate(); m.code = 3; m.qty = -7` -/
def badgeN : Inst := runOps env 5 badge badgeI [.validate {}, .set "code" (.int 3), .set "qty" (.int (-7))]
theorem badgeN_reachable : Reachable env 5 badge true badgeN :=
  .step (.set "qty" (.int (-7))) (.step (.set "code" (.int 3)) (.step (.validate {}) badgeI_reachable))

example : ∃ es p I', instValidate env 5 badge badgeN {} = (.error (.data es p), I') ∧ (Dict.get? es (.str "qty")).isSome ∧ getAttr badge I' "qty" = .ok (.int 1) :=
  ⟨_, _, _, rfl, rfl, C39_any_class env 5 badge badge_wf badge_distinct badge_tidy badgeN _ badgeN_reachable {} rfl _ _ rfl _ badge_qty qty_notModel badge_edits rfl⟩
example := C76_any_class env 5 badge badge_wf badge_distinct badge_tidy badgeI _ badgeI_reachable {} (Or.inl rfl) (.ok ()) rfl _ badge_qty badge_edits badge_assigns (Or.inl rfl) (.int 1) rfl
example : ∃ out I', instSerialize env 5 badge badgeN {} = (.ok out, I') ∧ getAttr badge I' "qty" = .ok (.int (-7)) :=
  ⟨_, _, rfl, (C40_any_class env 5 badge badge_wf badge_distinct badge_tidy badgeN _ badgeN_reachable {} _ rfl).2 _ badge_qty badge_assigns _ rfl⟩
example : getAttr badge (instImport env 5 badge badgeI [(.str "qty", .int 8)] { validate := true }).2 "qty" =
    getAttr badge (instImport env 5 badge badgeI [(.str "code", .int 9)] { validate := true }).2 "qty" :=
  C37_counterexample_never_used_any_class env 5 badge badge_wf badge_distinct badge_tidy badgeI badgeI_reachable _ badge_qty badge_edits badge_assigns (.int 1) rfl { validate := true } rfl
    [(.str "qty", .int 8)] [(.str "code", .int 9)] (by simp) (by simp) _ _ rfl rfl
/-- `Badge({}, init=False)` -/
def badgeE : Inst := { converted := [(.str "code", .undef)] }
theorem badgeE_reachable : Reachable env 5 badge true badgeE :=
  .new (ctx := { partial_ := true }) (raw := []) (trusted := []) (by unfold Dict.Nodup; decide) (by unfold Dict.Nodup; decide) (fun _ => rfl) rfl
example := C37_new_field_any_class env 5 badge badge_wf badge_distinct badge_tidy badgeE _ badgeE_reachable _ badge_qty badge_edits badge_assigns rfl { validate := true } rfl rfl
  [(.str "qty", .int 8)] (.int 8) (by simp) rfl rfl rfl

end Samples

end Verif
