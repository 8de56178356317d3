import Verif.Props.ErrorTree2

/-! # C20, C01 for any class: the `validate_<field>` methods may edit the data, and fields may have setters -/
namespace Verif

/-! ## Specification vocabulary -/

/-- The `validate_<field>` methods of the fields `fds` are called in order, starting with the data `d` and ending with `d'`: a field which has no method, or no value at that time, is passed over; a method
which returns may have edited the data; a method which raises leaves the data as it is.  `rs` are the fields whose method raised, with their reports. -/
inductive MethodsRun (c : ClassDef) (mv : Data) (app : Val) : List FieldDef → Data → Data → List (FieldDef × ErrTree) → Prop
  | done {d} : MethodsRun c mv app [] d d []
  | pass {fd fds d d' rs} : Dict.get? c.validators fd.name = none ∨ rawValue d fd.name = .undef → MethodsRun c mv app fds d d' rs →
      MethodsRun c mv app (fd :: fds) d d' rs
  | accept {fd fds g w d d1 d' rs} : Dict.get? c.validators fd.name = some g → Dict.get? d (.str fd.name) = some w → w ≠ .undef →
      g mv d w app = .ok d1 → MethodsRun c mv app fds d1 d' rs → MethodsRun c mv app (fd :: fds) d d' rs
  | reject {fd fds d d' t rs} : Rejects c mv app d fd t → MethodsRun c mv app fds d d' rs → MethodsRun c mv app (fd :: fds) d d' ((fd, t) :: rs)

/-- The methods leave no key twice in the data (which a Python dict cannot have). -/
def TidyMethods (c : ClassDef) : Prop := ∀ kv ∈ c.validators, ∀ mv d w app d', d.Nodup → kv.2 mv d w app = .ok d' → d'.Nodup

/-! ## Lemmas -/

theorem modelValidators_run {c : ClassDef} (hm : TidyMethods c) {mv : Data} {app : Val} {fds : List FieldDef} {d : Data} (hd : d.Nodup) {es : Errs} {inv : List String}
    {d' : Data} (h : modelValidators c mv app fds d = .ok (es, inv, d')) :
    ∃ rs, MethodsRun c mv app fds d d' rs ∧ es = entries rs ∧ inv = rs.map (·.1.name) ∧ d'.Nodup := by
  induction fds generalizing d es inv d' with
  | nil => cases h; exact ⟨[], .done, rfl, rfl, hd⟩
  | cons fd fds ih =>
    simp only [modelValidators] at h
    by_cases hu : (rawValue d fd.name).isUndef = true
    · rw [if_pos hu] at h
      obtain ⟨rs, h1, h2⟩ := ih hd h
      exact ⟨rs, .pass (Or.inr ((Val.isUndef_iff _).1 hu)) h1, h2⟩
    · rw [if_neg hu] at h
      obtain ⟨hw, hne⟩ := rawValue_get hu
      cases hg : Dict.get? c.validators fd.name with
      | none =>
        rw [hg] at h
        obtain ⟨rs, h1, h2⟩ := ih hd h
        exact ⟨rs, .pass (Or.inl hg) h1, h2⟩
      | some g =>
        rw [hg] at h
        simp only [] at h
        cases hr : g mv d (rawValue d fd.name) app with
        | ok d1 =>
          rw [hr] at h
          obtain ⟨rs, h1, h2⟩ := ih (hm _ (Dict.mem_of_get? hg) _ _ _ _ _ hd hr) h
          exact ⟨rs, .accept hg hw hne hr h1, h2⟩
        | error e =>
          rw [hr] at h
          simp only [] at h
          cases hrec : modelValidators c mv app fds d with
          | error e' => rw [hrec] at h; cases e <;> cases h
          | ok r =>
            obtain ⟨es1, inv1, d1⟩ := r
            obtain ⟨rs, h1, h2, h3, h4⟩ := ih hd hrec
            rw [hrec] at h
            cases e with
            | field k m => cases h; exact ⟨_, .reject ⟨g, _, _, hg, hw, hne, hr, .field⟩ h1, by rw [h2]; rfl, by rw [h3]; rfl, h4⟩
            | data es2 p => cases h; exact ⟨_, .reject ⟨g, _, _, hg, hw, hne, hr, .data⟩ h1, by rw [h2]; rfl, by rw [h3]; rfl, h4⟩
            | _ => cases h

theorem run_fields {c : ClassDef} {mv : Data} {app : Val} {fds : List FieldDef} {d d' : Data} {rs : List (FieldDef × ErrTree)}
    (h : MethodsRun c mv app fds d d' rs) : (rs.map (·.1)).Sublist fds := by
  induction h with
  | done => exact .slnil
  | pass _ _ ih => exact ih.cons _
  | accept _ _ _ _ _ ih => exact ih.cons _
  | reject _ _ ih => exact ih.cons_cons _

theorem entries_nodup {c : ClassDef} (hx : DistinctExt c) {rs : List (FieldDef × ErrTree)} (h : (rs.map (·.1)).Sublist c.fields) : Dict.Nodup (entries rs) := by
  have h1 : ((rs.map (·.1)).map (·.extName)).Nodup := List.Nodup.sublist (h.map _) hx
  have h2 : Dict.keys (entries rs) = ((rs.map (·.1)).map (·.extName)).map Key.str := by
    simp [Dict.keys, entries, List.map_map, Function.comp_def]
  unfold Dict.Nodup
  rw [h2]
  exact List.Pairwise.map _ (fun a b h e => h (by injection e)) h1

theorem modelValidators_data {c : ClassDef} {mv : Data} {app : Val} {fds : List FieldDef} {d : Data} {e : Exc}
    (h : modelValidators c mv app fds d = .error e) (es : Errs) (p : Data) : e ≠ .data es p := by
  induction fds generalizing d e with
  | nil => cases h
  | cons fd fds ih =>
    simp only [modelValidators] at h
    by_cases hu : (rawValue d fd.name).isUndef = true
    · rw [if_pos hu] at h; exact ih h
    · rw [if_neg hu] at h
      cases hg : Dict.get? c.validators fd.name with
      | none => rw [hg] at h; exact ih h
      | some g =>
        rw [hg] at h
        simp only [] at h
        cases hr : g mv d (rawValue d fd.name) app with
        | ok d1 => rw [hr] at h; exact ih h
        | error e' =>
          rw [hr] at h
          simp only [] at h
          have hrest : ∀ e, modelValidators c mv app fds d = .error e → e ≠ .data es p := fun e h => ih h
          cases hrec : modelValidators c mv app fds d with
          | error e2 =>
            rw [hrec] at h
            have := hrest _ hrec
            cases e' with
            | field k m => cases h; exact this
            | data es2 p => cases h; exact this
            | _ => cases h; simp
          | ok r =>
            rw [hrec] at h
            cases e' with
            | field k m => cases h
            | data es2 p => cases h
            | _ => cases h; simp

/-- What validation prepares, imports and lets the methods check. -/
theorem validate_run {env : Env} {n : Nat} {ctx : Ctx} {c : ClassDef} {content raw : Data} (hc : c.WF) (hx : DistinctExt c) (hm : TidyMethods c)
    (hval : ctx.validate = true) (htr : ctx.trusted.Nodup) (hcr : ¬ Crashed (runValidate env n ctx c (.inst content) raw)) :
    ∃ ss content' raw' d' rs, Prepared env ctx c True content raw ss content' raw' ∧ (settables c).length = ss.length ∧
      runImport env n ctx c (.inst content) raw = importBody (fieldConv env n) env ctx c raw' (setterErrors (settables c) ss []) ∧
      ¬ Crashed (runImport env n ctx c (.inst content) raw) ∧
      MethodsRun c content' ctx.app c.fields (dataOf (runImport env n ctx c (.inst content) raw)) d' rs ∧
      (∀ k, Dict.get? (errorsOf (runValidate env n ctx c (.inst content) raw)) k =
        (Dict.get? (entries rs) k).or (Dict.get? (errorsOf (runImport env n ctx c (.inst content) raw)) k)) ∧
      (∀ k, Dict.get? (dataOf (runValidate env n ctx c (.inst content) raw)) k = if k ∈ rs.map (fun q => Key.str q.1.name) then none else Dict.get? d' k) ∧
      (Succeeded (runValidate env n ctx c (.inst content) raw) ↔ errorsOf (runValidate env n ctx c (.inst content) raw) = []) := by
  cases hmut : runMutate (fieldConv env n) ctx c (.inst content) raw with
  | error e =>
    exfalso
    refine hcr ⟨e, (by unfold runValidate validateFn; rw [hmut]), ?_⟩
    rintro es p rfl
    unfold runMutate at hmut
    simp only [] at hmut
    split at hmut
    · rename_i e' he'
      injection hmut with hmut; subst hmut
      have := runSetters_crash he'; cases this
    · cases hmut
  | ok m =>
    obtain ⟨ss, hprep, herrs, hlen⟩ : ∃ rs, Prepared env ctx c True content raw rs m.data m.raw ∧ m.errs = setterErrors (settables c) rs [] ∧
        (settables c).length = rs.length := by
      have hmut' := hmut
      unfold runMutate at hmut'
      simp only [] at hmut'
      split at hmut'
      · cases hmut'
      · rename_i es d' hs
        injection hmut' with hmut'; subst hmut'
        obtain ⟨rs, h1, h2, h3⟩ := runSetters_acts settables_some hs
        exact ⟨rs, ⟨h1, h3, fun _ => rfl, fun h => absurd trivial h⟩, h2, all2_length h1⟩
    have himp : runImport env n ctx c (.inst content) raw = importBody (fieldConv env n) env ctx c m.raw m.errs := by
      simp only [runImport, importLoop, hval, if_true, hmut]
    have hicr : ¬ Crashed (runImport env n ctx c (.inst content) raw) := by
      rintro ⟨e, h3, h4⟩
      rw [himp] at h3
      exact hcr ⟨e, validateFn_crash hmut h3 h4, h4⟩
    have hnd : (dataOf (runImport env n ctx c (.inst content) raw)).Nodup := by rw [himp]; exact importBody_data_nodup hc htr
    have hrun : runValidate env n ctx c (.inst content) raw =
        finish (errorsOf (runImport env n ctx c (.inst content) raw)) (validateModel c m.data ctx.app (dataOf (runImport env n ctx c (.inst content) raw))) := by
      rw [himp] at hicr ⊢
      exact validateFn_eq hmut hicr
    cases hvm : validateModel c m.data ctx.app (dataOf (runImport env n ctx c (.inst content) raw)) with
    | error e =>
      exfalso
      rw [hvm] at hrun
      refine hcr ⟨e, hrun, fun es p => ?_⟩
      unfold validateModel at hvm
      split at hvm
      · rename_i e' he'
        cases hvm
        exact modelValidators_data he' es p
      · split at hvm
        · rename_i e' he'
          cases hvm
          have := popAll_crash he'
          rintro rfl; cases this
        · cases hvm
    | ok r2 =>
      obtain ⟨es2, d2⟩ := r2
      rw [hvm] at hrun
      unfold validateModel at hvm
      split at hvm
      · cases hvm
      · rename_i es1 inv d1 hmv
        split at hvm
        · cases hvm
        · rename_i d2' hpop
          injection hvm with h; injection h with h1 h2
          subst h2
          obtain ⟨rs, hr1, hr2, hr3, hr4⟩ := modelValidators_run hm hnd hmv
          have hne := entries_nodup hx (run_fields hr1)
          have hnd2 : Dict.Nodup es2 := by rw [← h1]; exact Dict.nodup_update (show Dict.Nodup [] from List.nodup_nil) _
          have hg2 : ∀ k, Dict.get? es2 k = Dict.get? (entries rs) k := by
            intro k
            rw [← h1, hr2, Dict.get?_update _ _ hne]
            cases Dict.get? (entries rs) k <;> rfl
          have hfin : ∀ (es : Errs) (d : Data), dataOf (if es.isEmpty then .ok d else .error (.data es d)) = d ∧
              errorsOf (if es.isEmpty then .ok d else .error (.data es d)) = es ∧
              (Succeeded (if es.isEmpty then .ok d else .error (.data es d)) ↔ es = []) := by
            intro es d
            cases es with
            | nil => exact ⟨rfl, rfl, fun _ => rfl, fun _ => ⟨d, rfl⟩⟩
            | cons x es => exact ⟨rfl, rfl, (by rintro ⟨d, h⟩; cases h), (by intro h; cases h)⟩
          obtain ⟨f1, f2, f3⟩ := hfin ((errorsOf (runImport env n ctx c (.inst content) raw)).update es2) d2'
          refine ⟨ss, m.data, m.raw, d1, rs, hprep, hlen, by rw [himp, herrs], hicr, hr1, fun k => ?_, fun k => ?_, ?_⟩
          · rw [hrun]
            unfold finish
            simp only []
            rw [f2, Dict.get?_update _ _ hnd2, hg2]
          · rw [hrun]
            unfold finish
            simp only []
            rw [f1, popAll_get hr4 hpop, hr3, List.map_map]
            rfl
          · rw [hrun]
            unfold finish
            simp only []
            rw [f2]
            exact f3

theorem entry_iff {c : ClassDef} (hx : DistinctExt c) {rs : List (FieldDef × ErrTree)} (h : (rs.map (·.1)).Sublist c.fields) (k : Key) (u : ErrTree) :
    Dict.get? (entries rs) k = some u ↔ ∃ fd, (fd, u) ∈ rs ∧ k = .str fd.extName := by
  have hnd := entries_nodup hx h
  have hmem : Dict.get? (entries rs) k = some u ↔ (k, u) ∈ entries rs := ⟨Dict.mem_of_get?, Dict.get?_of_mem hnd⟩
  rw [hmem]
  unfold entries
  rw [List.mem_map]
  constructor
  · rintro ⟨⟨fd, u'⟩, h1, h2⟩; cases h2; exact ⟨fd, h1, rfl⟩
  · rintro ⟨fd, h1, rfl⟩; exact ⟨(fd, u), h1, rfl⟩

theorem entry_none {c : ClassDef} (hx : DistinctExt c) {rs : List (FieldDef × ErrTree)} (h : (rs.map (·.1)).Sublist c.fields) (k : Key)
    (hk : ∀ q ∈ rs, k ≠ .str q.1.extName) : Dict.get? (entries rs) k = none := by
  cases hg : Dict.get? (entries rs) k with
  | none => rfl
  | some u =>
    obtain ⟨fd, h1, h2⟩ := (entry_iff hx h k u).1 hg
    exact absurd h2 (hk _ h1)

theorem body_keys {rec : Rec} {env : Env} {ctx : Ctx} {c : ClassDef} (hc : c.WF) (hv : ctx.validate = true) {raw : Data} (hr : NoCrash (importBody rec env ctx c raw [])) (k : Key) :
    (k ∈ (errorsOf (importBody rec env ctx c raw [])).keys → (∃ fd ∈ c.fields, k = .str fd.extName) ∨ Rogue ctx c raw k) ∧
    (Rogue ctx c raw k → k ∈ (errorsOf (importBody rec env ctx c raw [])).keys) := by
  rw [importBody_eq _ _ _ _ hc] at hr ⊢
  cases hos : outcomes (fieldRes rec env ctx raw) (c.loopFields ctx) with
  | error e =>
    exfalso
    have := hr e (by rw [hos])
    obtain ⟨fd, _, he⟩ := outcomes_error hos
    rw [fieldRes_error he] at this; cases this
  | ok os =>
    simp only []
    have hfst := outcomes_map_fst hos
    have h0 : ∀ (es : Errs) (d : Data), errorsOf (if es.isEmpty then .ok d else .error (.data es d)) = es := by
      intro es d; cases es <;> rfl
    rw [h0, applyAll_errs_keys, mem_startErrs, mem_rogueKeys]
    constructor
    · rintro ((h | h) | ⟨q, hq, _, hk⟩)
      · cases h
      · exact Or.inr h
      · refine Or.inl ⟨q.1, ?_, hk⟩
        have : q.1 ∈ c.loopFields ctx := by rw [← hfst]; exact List.mem_map_of_mem hq
        rw [show c.loopFields ctx = c.fields by simp [ClassDef.loopFields, hv]] at this
        exact this
    · intro h; exact Or.inl (Or.inr h)

theorem goes_iff {env : Env} {n : Nat} {ctx : Ctx} {c : ClassDef} (hc : c.WF) (hx : DistinctExt c) (hv : ctx.validate = true) {raw : Data}
    (hn : NoCrash (importBody (fieldConv env n) env ctx c raw [])) {fd : FieldDef} (hfd : fd ∈ c.fields) :
    Dict.get? (errorsOf (importBody (fieldConv env n) env ctx c raw [])) (.str fd.extName) = none ↔ Goes env ctx raw fd := by
  have hlp := fun fd => loop_all hv (c := c) fd
  rw [importBody_entry hc hx hlp hn hfd trivial]
  unfold Goes
  by_cases hl : Looked ctx raw fd
  · have hnf := importBody_noCrash hc hlp hn hfd trivial hl
    constructor
    · rintro (h | ⟨w, h⟩)
      · exact Or.inl h
      · exact Or.inr ⟨n, w, h⟩
    · rintro (h | ⟨m, w, h⟩)
      · exact Or.inl h
      · refine Or.inr ⟨w, ?_⟩
        refine (fieldConv_det h rfl (fun h => (by cases h)) ?_)
        intro hf
        have := hnf _ hf
        cases this
  · exact ⟨fun _ => Or.inl hl, fun _ => Or.inl hl⟩

/-! ## The theorems -/

/-- **C20** (any class: methods may edit the data, fields may have setters).  A validation which does not crash has called the `validate_<field>` methods in field order on the imported data, each at most
once; the ones which raised are reported under their field's external name, in place of other errors, and their fields are removed; all other errors are those of the import, and all other data is what the
methods left. -/
theorem C20_methods_in_order (env : Env) (n : Nat) (ctx : Ctx) (c : ClassDef) (content raw : Data) (hc : c.WF) (hx : DistinctExt c) (hm : TidyMethods c)
    (hval : ctx.validate = true) (htr : ctx.trusted.Nodup) (hcr : ¬ Crashed (runValidate env n ctx c (.inst content) raw)) :
    ∃ ss content' raw', Prepared env ctx c True content raw ss content' raw' ∧
    ∃ left reports, MethodsRun c content' ctx.app c.fields (dataOf (runImport env n ctx c (.inst content) raw)) left reports ∧
      (∀ fd t, (fd, t) ∈ reports → (errorsOf (runValidate env n ctx c (.inst content) raw)).get? (.str fd.extName) = some t ∧
        (dataOf (runValidate env n ctx c (.inst content) raw)).get? (.str fd.name) = none) ∧
      (∀ k, (∀ q ∈ reports, k ≠ .str q.1.extName) → (errorsOf (runValidate env n ctx c (.inst content) raw)).get? k =
        (errorsOf (runImport env n ctx c (.inst content) raw)).get? k) ∧
      (∀ k, (∀ q ∈ reports, k ≠ .str q.1.name) → (dataOf (runValidate env n ctx c (.inst content) raw)).get? k = left.get? k) := by
  obtain ⟨ss, content', raw', d', rs, h1, _, _, _, h2, h3, h4, _⟩ := validate_run hc hx hm hval htr hcr
  have hsub := run_fields h2
  refine ⟨ss, content', raw', h1, d', rs, h2, fun fd t h => ⟨?_, ?_⟩, fun k hk => ?_, fun k hk => ?_⟩
  · rw [h3, (entry_iff hx hsub _ _).2 ⟨fd, h, rfl⟩]; rfl
  · rw [h4, if_pos]
    exact List.mem_map.2 ⟨_, h, rfl⟩
  · rw [h3, entry_none hx hsub k hk]; rfl
  · rw [h4, if_neg]
    intro h
    obtain ⟨q, h5, h6⟩ := List.mem_map.1 h
    exact hk q h5 h6.symm

/-- **C01** (validation of any class).  The errors of a validation are exactly: the fields whose input, after the setters have run, does not go through; the settable fields whose setter refuses; the
unknown keys in strict mode; and the fields whose `validate_<field>` method raises.  It succeeds when there are none of these. -/
theorem C01_validation_any_class (env : Env) (n : Nat) (ctx : Ctx) (c : ClassDef) (content raw : Data) (hc : c.WF) (hx : DistinctExt c) (hm : TidyMethods c)
    (hval : ctx.validate = true) (htr : ctx.trusted.Nodup) (hcr : ¬ Crashed (runValidate env n ctx c (.inst content) raw)) :
    ∃ ss content' raw', Prepared env ctx c True content raw ss content' raw' ∧
    ∃ left reports, MethodsRun c content' ctx.app c.fields (dataOf (runImport env n ctx c (.inst content) raw)) left reports ∧
      (∀ k, k ∈ (errorsOf (runValidate env n ctx c (.inst content) raw)).keys ↔
        (∃ fd ∈ c.fields, ¬ Goes env ctx raw' fd ∧ k = .str fd.extName) ∨
        (∃ fd u, (fd, SetterResult.refuses u) ∈ (settables c).zip ss ∧ k = .str fd.extName) ∨ Rogue ctx c raw k ∨
        ∃ q ∈ reports, k = .str q.1.extName) ∧
      (Succeeded (runValidate env n ctx c (.inst content) raw) ↔
        (∀ fd ∈ c.fields, Goes env ctx raw' fd) ∧ (∀ fd u, (fd, SetterResult.refuses u) ∉ (settables c).zip ss) ∧ (∀ k, ¬ Rogue ctx c raw k) ∧ reports = []) := by
  obtain ⟨ss, content', raw', d', rs, h1, hlen, himp, hicr, h2, h3, _, h5⟩ := validate_run hc hx hm hval htr hcr
  have hsub := run_fields h2
  have hnc : NoCrash (importBody (fieldConv env n) env ctx c raw' (setterErrors (settables c) ss [])) := by
    rw [← himp]
    intro e he
    refine Classical.byContradiction fun hcc => hicr ⟨e, he, ?_⟩
    rintro es p rfl; exact hcc rfl
  obtain ⟨hn0, _, _⟩ := body_setters hc hx hlen hnc
  have hsplit := (importBody_split (fieldConv env n) env ctx c hc raw' (setterErrors (settables c) ss [])).2.2 (by rw [← himp]; exact hicr)
  have hkeys : ∀ k, k ∈ (errorsOf (runValidate env n ctx c (.inst content) raw)).keys ↔
        (∃ fd ∈ c.fields, ¬ Goes env ctx raw' fd ∧ k = .str fd.extName) ∨
        (∃ fd u, (fd, SetterResult.refuses u) ∈ (settables c).zip ss ∧ k = .str fd.extName) ∨ Rogue ctx c raw k ∨
        ∃ q ∈ rs, k = .str q.1.extName := by
    intro k
    have hrog : Rogue ctx c raw' k ↔ Rogue ctx c raw k := by
      rw [h1.completed trivial]; exact rogue_completed _ k
    have hset := setterErrors_get (settables c) ss hlen (settable_distinct hx) [] (fun fd _ => rfl) k
    rw [← Dict.get?_isSome, h3, himp, hsplit.2]
    have hor : ∀ {α : Type} (a b : Option α), (a.or b).isSome = true ↔ a.isSome = true ∨ b.isSome = true := by
      intro α a b; cases a <;> cases b <;> simp
    rw [hor, hor]
    have e1 : (Dict.get? (entries rs) k).isSome = true ↔ ∃ q ∈ rs, k = .str q.1.extName := by
      rw [Option.isSome_iff_exists]
      constructor
      · rintro ⟨u, h⟩
        obtain ⟨fd, a, b⟩ := (entry_iff hx hsub k u).1 h
        exact ⟨_, a, b⟩
      · rintro ⟨q, a, b⟩
        exact ⟨q.2, (entry_iff hx hsub k q.2).2 ⟨q.1, a, b⟩⟩
    have e2 : (Dict.get? (setterErrors (settables c) ss []) k).isSome = true ↔ ∃ fd u, (fd, SetterResult.refuses u) ∈ (settables c).zip ss ∧ k = .str fd.extName := by
      rw [Option.isSome_iff_exists]
      constructor
      · rintro ⟨u, h⟩
        rcases (hset u).1 h with ⟨fd, a, b⟩ | a
        · exact ⟨fd, u, a, b⟩
        · cases a
      · rintro ⟨fd, u, a, b⟩
        exact ⟨u, (hset u).2 (Or.inl ⟨fd, a, b⟩)⟩
    have e3 : (Dict.get? (errorsOf (importBody (fieldConv env n) env ctx c raw' [])) k).isSome = true ↔
        (∃ fd ∈ c.fields, ¬ Goes env ctx raw' fd ∧ k = .str fd.extName) ∨ Rogue ctx c raw k := by
      obtain ⟨b1, b2⟩ := body_keys hc hval hn0 k
      rw [← hrog]
      constructor
      · intro h
        rcases b1 ((Dict.get?_isSome _ _).1 h) with ⟨fd, hfd, rfl⟩ | h'
        · refine Or.inl ⟨fd, hfd, fun hg => ?_, rfl⟩
          rw [(goes_iff hc hx hval hn0 hfd).2 hg] at h; cases h
        · exact Or.inr h'
      · rintro (⟨fd, hfd, hg, rfl⟩ | h)
        · cases hk : Dict.get? (errorsOf (importBody (fieldConv env n) env ctx c raw' [])) (.str fd.extName) with
          | some u => rfl
          | none => exact absurd ((goes_iff hc hx hval hn0 hfd).1 hk) hg
        · exact (Dict.get?_isSome _ _).2 (b2 h)
    rw [e1, e2, e3]
    constructor
    · rintro (h | (h | h) | h)
      · exact Or.inr (Or.inr (Or.inr h))
      · exact Or.inl h
      · exact Or.inr (Or.inr (Or.inl h))
      · exact Or.inr (Or.inl h)
    · rintro (h | h | h | h)
      · exact Or.inr (Or.inl (Or.inl h))
      · exact Or.inr (Or.inr h)
      · exact Or.inr (Or.inl (Or.inr h))
      · exact Or.inl h
  refine ⟨ss, content', raw', h1, d', rs, h2, hkeys, ?_⟩
  rw [h5]
  constructor
  · intro he
    have hno : ∀ k, ¬ k ∈ (errorsOf (runValidate env n ctx c (.inst content) raw)).keys := by intro k h; rw [he] at h; cases h
    refine ⟨fun fd hfd => Classical.byContradiction fun h => hno _ ((hkeys _).2 (Or.inl ⟨fd, hfd, h, rfl⟩)),
      fun fd u h => hno _ ((hkeys _).2 (Or.inr (Or.inl ⟨fd, u, h, rfl⟩))), fun k h => hno _ ((hkeys _).2 (Or.inr (Or.inr (Or.inl h)))), ?_⟩
    cases rs with
    | nil => rfl
    | cons q rs => exact absurd ((hkeys _).2 (Or.inr (Or.inr (Or.inr ⟨q, by simp, rfl⟩)))) (hno _)
  · rintro ⟨a, b, e, rfl⟩
    cases hes : errorsOf (runValidate env n ctx c (.inst content) raw) with
    | nil => rfl
    | cons x es =>
      exfalso
      rcases (hkeys x.1).1 (by rw [hes]; simp [Dict.keys]) with ⟨fd, h, h', _⟩ | ⟨fd, u, h, _⟩ | h | ⟨q, h, _⟩
      · exact h' (a fd h)
      · exact b fd u h
      · exact e _ h
      · cases h

theorem run_crash {c : ClassDef} {mv : Data} {app : Val} {pre post : List FieldDef} {fd : FieldDef} {d d' : Data} {rs : List (FieldDef × ErrTree)}
    (h : MethodsRun c mv app pre d d' rs) {g : ModelValidator} {w : Val} {e : Exc} (hg : Dict.get? c.validators fd.name = some g)
    (hw : Dict.get? d' (.str fd.name) = some w) (hu : w ≠ .undef) (he : g mv d' w app = .error e) (hr : ∀ t, ¬ ReportOf e t) :
    modelValidators c mv app (pre ++ fd :: post) d = .error e := by
  have hraw : ∀ {d : Data} {s : String} {w : Val}, Dict.get? d (.str s) = some w → rawValue d s = w := by
    intro d s w h; unfold rawValue; rw [h]; rfl
  have hun : ∀ {w : Val}, w ≠ .undef → w.isUndef = false := by
    intro w h
    cases hb : w.isUndef with
    | false => rfl
    | true => exact absurd ((Val.isUndef_iff _).1 hb) h
  induction h with
  | done =>
    simp only [List.nil_append, modelValidators, hraw hw, hun hu, Bool.false_eq_true, if_false, hg, he]
    cases e with
    | field k m => exact absurd .field (hr _)
    | data es p => exact absurd .data (hr _)
    | _ => rfl
  | pass hp _ ih =>
    rw [List.cons_append]
    unfold modelValidators
    rcases hp with hp | hp
    · rw [hp, show ∀ b : Bool, (if b then (none : Option ModelValidator) else none) = none by intro b; cases b <;> rfl]
      exact ih hw he
    · rw [hp]
      exact ih hw he
  | accept h1 h2 h3 h4 _ ih =>
    rw [List.cons_append]
    unfold modelValidators
    rw [hraw h2, hun h3]
    simp only [Bool.false_eq_true, if_false, h1, h4]
    exact ih hw he
  | reject h1 _ ih =>
    obtain ⟨g', w', e', h1, h2, h3, h4, h5⟩ := h1
    rw [List.cons_append]
    unfold modelValidators
    rw [hraw h2, hun h3]
    simp only [Bool.false_eq_true, if_false, h1, h4]
    cases h5 <;> simp only [ih hw he]

/-- **C20** (other exceptions).  A method which raises something else than a validation error ends the validation with that exception, whatever the methods before it did; the methods after it do not run. -/
theorem C20_other_exceptions_escape (env : Env) (n : Nat) (ctx : Ctx) (c : ClassDef) (content raw : Data) (hval : ctx.validate = true)
    (himp : ¬ Crashed (runImport env n ctx c (.inst content) raw)) {ss : List SetterResult} {content' raw' : Data} (hprep : Prepared env ctx c True content raw ss content' raw')
    {pre post : List FieldDef} {fd : FieldDef} (hf : c.fields = pre ++ fd :: post) {d : Data} {rs : List (FieldDef × ErrTree)}
    (hrun : MethodsRun c content' ctx.app pre (dataOf (runImport env n ctx c (.inst content) raw)) d rs)
    {g : ModelValidator} {w : Val} {e : Exc} (hg : Dict.get? c.validators fd.name = some g) (hw : Dict.get? d (.str fd.name) = some w) (hu : w ≠ .undef)
    (he : g content' d w ctx.app = .error e) (hr : ∀ t, ¬ ReportOf e t) :
    runValidate env n ctx c (.inst content) raw = .error e := by
  cases hmut : runMutate (fieldConv env n) ctx c (.inst content) raw with
  | error e' =>
    exfalso
    refine himp ⟨e', (by simp only [runImport, importLoop, hval, if_true, hmut]), ?_⟩
    rintro es p rfl
    unfold runMutate at hmut
    simp only [] at hmut
    split at hmut
    · rename_i e' he'
      injection hmut with hmut; subst hmut
      have := runSetters_crash he'; cases this
    · cases hmut
  | ok m =>
    have hprep' : ∃ ss, Prepared env ctx c True content raw ss m.data m.raw := by
      have hmut' := hmut
      unfold runMutate at hmut'
      simp only [] at hmut'
      split at hmut'
      · cases hmut'
      · rename_i es d' hs
        injection hmut' with hmut'; subst hmut'
        obtain ⟨rs, h1, h2, h3⟩ := runSetters_acts settables_some hs
        exact ⟨rs, ⟨h1, h3, fun _ => rfl, fun h => absurd trivial h⟩⟩
    obtain ⟨ss', hprep'⟩ := hprep'
    obtain ⟨rfl, hdat, hraw⟩ := prepared_det hprep hprep'
    have himp' : runImport env n ctx c (.inst content) raw = importBody (fieldConv env n) env ctx c m.raw m.errs := by
      simp only [runImport, importLoop, hval, if_true, hmut]
    have hv : runValidate env n ctx c (.inst content) raw =
        finish (errorsOf (runImport env n ctx c (.inst content) raw)) (validateModel c m.data ctx.app (dataOf (runImport env n ctx c (.inst content) raw))) := by
      rw [himp'] at himp ⊢
      exact validateFn_eq hmut himp
    rw [hv]
    have hmv := run_crash (post := post) hrun hg hw hu he hr
    unfold validateModel
    rw [hdat, hf, hmv]
    rfl

/-! ## The hypotheses are met -/

/-- Items whose `validate_qty` doubles the number in the data and whose `validate_tag` refuses the tag of a quantity above five, which it sees in the edited data. -/
def Samples.doubling : ClassDef :=
  { Samples.coded with
    name := "Doubling"
    fields := Samples.coded.fields ++ [{ name := "tag", field := .mk (.leaf Samples.strLeaf) { serializedName := some "label" } }]
    validators := [
      ("qty", fun _ d w _ => match w with | .int i => .ok (d.set (.str "qty") (.int (i + i))) | _ => .ok d),
      ("tag", fun _ d _ _ => match rawValue d "qty" with | .int i => if i > 5 then .error (.field .valid ["many"]) else .ok d | _ => .error (.other "TypeError"))] }
theorem Samples.doubling_tidy : TidyMethods Samples.doubling := by
  intro kv h mv d w app d' hd he
  simp only [Samples.doubling, List.mem_cons, List.not_mem_nil, or_false] at h
  rcases h with rfl | rfl
  · simp only [] at he
    split at he
    · cases he; exact Dict.nodup_set hd _ _
    · cases he; exact hd
  · simp only [] at he
    split at he
    · split at he <;> cases he
      exact hd
    · cases he
/-- The tag is refused because the quantity has been doubled; the setter of `code` refuses as well. -/
example : runValidate Samples.codedEnv 5 Samples.vctx Samples.doubling (.inst []) [(.str "qty", .int 3), (.str "code", .int 7), (.str "label", .str "a")] =
    .error (.data [(.str "code", .leaf .valid ["seven"]), (.str "label", .msgs ["many"])] [(.str "qty", .int 6), (.str "code", .int 7)]) := rfl
example := C20_methods_in_order Samples.codedEnv 5 Samples.vctx Samples.doubling [] [(.str "qty", .int 3), (.str "code", .int 7), (.str "label", .str "a")]
  (by unfold ClassDef.WF; decide) (by unfold DistinctExt; decide) Samples.doubling_tidy rfl (by simp [Samples.vctx, Dict.Nodup]) (by rintro ⟨e, h, h2⟩; cases h; exact h2 _ _ rfl)
example := C01_validation_any_class Samples.codedEnv 5 Samples.vctx Samples.doubling [] [(.str "qty", .int 3), (.str "code", .int 7), (.str "label", .str "a")]
  (by unfold ClassDef.WF; decide) (by unfold DistinctExt; decide) Samples.doubling_tidy rfl (by simp [Samples.vctx, Dict.Nodup]) (by rintro ⟨e, h, h2⟩; cases h; exact h2 _ _ rfl)
/-- Without a quantity `validate_tag` raises a `TypeError`, which escapes. -/
example : runValidate Samples.codedEnv 5 Samples.vctx Samples.doubling (.inst []) [(.str "label", .str "a")] = .error (.other "TypeError") := by
  refine C20_other_exceptions_escape Samples.codedEnv 5 Samples.vctx Samples.doubling [] [(.str "label", .str "a")] rfl
    (by rintro ⟨e, h, h2⟩; cases h; exact h2 _ _ rfl)
    (ss := [.nothing]) (content' := []) (raw' := [(.str "label", .str "a")])
    ⟨.cons (.absent (by intro v h; cases h)) .nil, rfl, fun _ => rfl, fun h => absurd trivial h⟩ (pre := Samples.coded.fields) (post := []) rfl
    (d := [(.str "code", .none), (.str "tag", .str "a")]) (rs := [])
    (.pass (Or.inr rfl) (.pass (Or.inl rfl) .done)) rfl rfl (by simp) rfl (by intro t h; cases h)

end Verif
