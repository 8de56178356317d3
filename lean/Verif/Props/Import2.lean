import Verif.Samples
import Verif.Props.Import

/-! # Properties of import and validation: strictness, unknown keys, defaults,
initialisation, name precedence, independence, trusted data (C02-C04, C07-C11) -/
namespace Verif

/-! ## helper lemmas -/

theorem tree_ne_rogue {e : Exc} (h : e.caught = true) : e.tree ≠ .rogue := by
  cases e <;> simp_all [Exc.caught, Exc.tree]

theorem fieldOutcome_congr {rec : Rec} {env : Env} {ctx : Ctx} {raw raw' : Data} {b : Bool}
    {fd : FieldDef}
    (h : ∀ s ∈ ownNames ctx.mapping fd, raw.get? (.str s) = raw'.get? (.str s)) :
    fieldOutcome rec env ctx raw b fd = fieldOutcome rec env ctx raw' b fd := by
  unfold fieldOutcome
  rw [inputValue_congr h]

theorem importFields_congr {rec : Rec} {env : Env} {ctx : Ctx} {raw raw' : Data}
    {fds : List FieldDef} {a : Acc}
    (h : ∀ fd ∈ fds, ∀ s ∈ ownNames ctx.mapping fd, raw.get? (.str s) = raw'.get? (.str s)) :
    importFields rec env ctx raw fds a = importFields rec env ctx raw' fds a := by
  induction fds generalizing a with
  | nil => rfl
  | cons fd fds ih =>
    simp only [importFields]
    rw [fieldOutcome_congr (h fd (by simp))]
    split
    · rfl
    · exact ih fun fd' hm => h fd' (by simp [hm])

theorem ownNames_accepted {m : Mapping} {c : ClassDef} {fd : FieldDef} (hfd : fd ∈ c.fields)
    {s : String} (hs : s ∈ ownNames m fd) : Accepted m c (.str s) := by
  refine ⟨s, rfl, ?_⟩
  simp only [ownNames, List.mem_cons, List.mem_append, List.mem_filter, Option.mem_toList] at hs
  rcases hs with rfl | (⟨h1, h2⟩ | h) | h
  · exact Or.inl ⟨fd, hfd, Or.inl rfl⟩
  · exact Or.inl ⟨fd, hfd, Or.inr (Or.inl ⟨h1, by simpa using h2⟩)⟩
  · right
    cases he : Dict.get? m.entries fd.name with
    | none => simp [he] at h
    | some l =>
      simp only [he, Option.getD_some] at h
      exact ⟨_, Dict.mem_of_get? he, h⟩
  · exact Or.inl ⟨fd, hfd, Or.inr (Or.inr h)⟩

theorem name_accepted {m : Mapping} {c : ClassDef} {fd : FieldDef} (hfd : fd ∈ c.fields) :
    Accepted m c (.str fd.name) := ownNames_accepted hfd (by simp [ownNames])

theorem extName_accepted {m : Mapping} {c : ClassDef} {fd : FieldDef} (hfd : fd ∈ c.fields) :
    Accepted m c (.str fd.extName) := by
  refine ⟨_, rfl, Or.inl ⟨fd, hfd, ?_⟩⟩
  unfold FieldDef.extName
  cases hs : fd.field.o.serializedName with
  | none => exact Or.inl rfl
  | some s =>
    simp only []
    split
    · exact Or.inl rfl
    · exact Or.inr (Or.inl ⟨rfl, by assumption⟩)

theorem loop_sub {c : ClassDef} {ctx : Ctx} {fd : FieldDef} (h : fd ∈ c.loopFields ctx) :
    fd ∈ c.fields := (mem_loopFields.1 h).1

theorem settable_sub {c : ClassDef} {fd : FieldDef} (h : fd ∈ c.settable) :
    fd ∈ c.fields := (List.mem_filter.1 h).1

theorem rawValue_congr {raw raw' : Data} {s : String}
    (h : raw.get? (.str s) = raw'.get? (.str s)) : rawValue raw s = rawValue raw' s := by
  unfold rawValue; rw [h]

theorem foldSettable_congr {raw raw' : Data} {fds : List FieldDef} {d : Data}
    (h : ∀ fd ∈ fds, raw.get? (.str fd.name) = raw'.get? (.str fd.name)) :
    fds.foldl (fun d fd => d.set (.str fd.name) (rawValue raw fd.name)) d =
      fds.foldl (fun d fd => d.set (.str fd.name) (rawValue raw' fd.name)) d := by
  induction fds generalizing d with
  | nil => rfl
  | cons fd fds ih =>
    rw [List.foldl_cons, List.foldl_cons, rawValue_congr (h fd (by simp))]
    exact ih fun fd' hm => h fd' (by simp [hm])

/-- Two inputs agree on everything the schema accepts. -/
def AgreeAccepted (m : Mapping) (c : ClassDef) (raw raw' : Data) : Prop :=
  ∀ k, Accepted m c k → raw.get? k = raw'.get? k

theorem importBody_congr {rec : Rec} {env : Env} {ctx : Ctx} {c : ClassDef} {raw raw' : Data}
    {errs0 : Errs} (hs : ctx.strict = false) (h : AgreeAccepted ctx.mapping c raw raw') :
    importBody rec env ctx c raw errs0 = importBody rec env ctx c raw' errs0 := by
  unfold importBody rogueKeys
  simp only [hs, Bool.false_eq_true, if_false]
  rw [importFields_congr fun fd hfd s hs => h _ (ownNames_accepted (loop_sub hfd) hs)]
  have : ∀ d, copySettable c ctx raw d = copySettable c ctx raw' d := by
    intro d
    unfold copySettable
    rw [foldSettable_congr fun fd hfd => h _ (name_accepted (settable_sub hfd))]
  simp only [this]

theorem runSetters_congr {rec : Rec} {ctx : Ctx} {raw raw' : Data} {b : Bool}
    {fds : List FieldDef} {es : Errs} {d : Data}
    (h : ∀ fd ∈ fds, raw.get? (.str fd.name) = raw'.get? (.str fd.name)) :
    runSetters rec ctx raw b fds es d = runSetters rec ctx raw' b fds es d := by
  induction fds generalizing es d with
  | nil => rfl
  | cons fd fds ih =>
    have ih' := fun es d => ih (es := es) (d := d) fun fd' hm => h fd' (by simp [hm])
    simp only [runSetters, rawValue_congr (h fd (by simp)), ih']

theorem view_keys {c : ClassDef} {d : Data} {k : Key} (h : k ∈ (c.view d).keys) :
    ∃ fd ∈ c.fields, fd.fset = none ∧ k = .str fd.name := by
  unfold ClassDef.view Dict.keys at h
  simp only [List.mem_map, List.mem_filterMap] at h
  obtain ⟨kv, ⟨fd, hfd, hkv⟩, rfl⟩ := h
  split at hkv
  · cases hkv
  · rename_i hns
    have hns : fd.fset = none := by simpa using hns
    split at hkv
    · cases hkv
    · split at hkv
      · injection hkv with hkv; exact ⟨fd, hfd, hns, by rw [← hkv]⟩
      · cases hg : (‹Data → Option Val› d) with
        | none => rw [hg] at hkv; cases hkv
        | some w =>
          rw [hg] at hkv
          injection hkv with hkv
          exact ⟨fd, hfd, hns, by rw [← hkv]⟩

theorem view_nodup {c : ClassDef} (hc : c.WF) (d : Data) : (c.view d).Nodup := by
  unfold ClassDef.WF at hc
  show (Dict.keys (c.view d)).Nodup
  have hk : ∀ (fds : List FieldDef) (_ : (fds.map (·.name)).Nodup),
      (Dict.keys (ClassDef.view { c with fields := fds } d)).Nodup := by
    intro fds
    induction fds with
    | nil => intro _; simp [ClassDef.view]
    | cons fd fds ih =>
      intro h
      simp only [List.map_cons, List.nodup_cons] at h
      have hrest := ih h.2
      have hnot : Key.str fd.name ∉ Dict.keys (ClassDef.view { c with fields := fds } d) := by
        intro hm
        obtain ⟨fd', hfd', _, heq⟩ := view_keys hm
        injection heq with heq
        exact h.1 (List.mem_map.2 ⟨fd', hfd', heq.symm⟩)
      unfold ClassDef.view at hrest hnot ⊢
      simp only [List.filterMap_cons]
      split
      · exact hrest
      · rename_i b hb
        have : b.1 = .str fd.name := by
          split at hb
          · cases hb
          · split at hb
            · cases hb
            · split at hb
              · injection hb with hb; rw [← hb]
              · cases hg : (‹Data → Option Val› d) with
                | none => rw [hg] at hb; cases hb
                | some w => rw [hg] at hb; injection hb with hb; rw [← hb]
        rw [Dict.keys_cons, List.nodup_cons, this]
        exact ⟨hnot, hrest⟩
  exact hk c.fields hc

theorem get?_update_congr {raw raw' e : Data} {k : Key} (h : raw.get? k = raw'.get? k) :
    (raw.update e).get? k = (raw'.update e).get? k := by
  induction e generalizing raw raw' with
  | nil => exact h
  | cons kv e ih =>
    rw [Dict.update_cons, Dict.update_cons]
    apply ih
    rw [Dict.get?_set, Dict.get?_set, h]

theorem runMutate_congr {rec : Rec} {ctx : Ctx} {c : ClassDef} {mu : Mut} {raw raw' : Data}
    (h : AgreeAccepted ctx.mapping c raw raw') :
    (∃ e, runMutate rec ctx c mu raw = .error e ∧ runMutate rec ctx c mu raw' = .error e) ∨
    ∃ m m', runMutate rec ctx c mu raw = .ok m ∧ runMutate rec ctx c mu raw' = .ok m' ∧
      m.errs = m'.errs ∧ ((∃ d, mu = .inst d) → m.data = m'.data) ∧
      AgreeAccepted ctx.mapping c m.raw m'.raw := by
  have hset : ∀ b es d, runSetters rec ctx raw b c.settable es d =
      runSetters rec ctx raw' b c.settable es d :=
    fun b es d => runSetters_congr fun fd hfd => h _ (name_accepted (settable_sub hfd))
  cases mu with
  | inst d =>
    simp only [runMutate, hset]
    cases runSetters rec ctx raw' true c.settable [] d with
    | error e => exact Or.inl ⟨e, rfl, rfl⟩
    | ok r =>
      right
      exact ⟨_, _, rfl, rfl, rfl, fun _ => rfl, fun k hk => get?_update_congr (h k hk)⟩
  | same b =>
    simp only [runMutate, hset]
    cases runSetters rec ctx raw' false c.settable [] [] with
    | error e => exact Or.inl ⟨e, rfl, rfl⟩
    | ok r =>
      cases b with
      | true => exact Or.inl ⟨_, rfl, rfl⟩
      | false => exact Or.inr ⟨_, _, rfl, rfl, rfl, (fun hd => by obtain ⟨d, hd⟩ := hd; cases hd), h⟩

/-! ## C03 -/

/-- **C03.** Without strict mode, an import (with or without validation) and a
model validation have the same outcome - result data, errors, partial data and
crashes alike - on any two inputs which agree on the keys the schema accepts. -/
theorem C03_unknown_keys_ignored (env : Env) (n : Nat) (ctx : Ctx) (c : ClassDef) (mu : Mut)
    (raw raw' : Data) (hs : ctx.strict = false)
    (h : ∀ k, Accepted ctx.mapping c k → raw.get? k = raw'.get? k) :
    runImport env n ctx c mu raw = runImport env n ctx c mu raw' ∧
    ((∃ d, mu = .inst d) → runValidate env n ctx c mu raw = runValidate env n ctx c mu raw') := by
  have hm := runMutate_congr (rec := fieldConv env n) (mu := mu) h
  constructor
  · unfold runImport importLoop
    split
    · rcases hm with ⟨e, h1, h2⟩ | ⟨m, m', h1, h2, h3, _, h5⟩
      · rw [h1, h2]
      · rw [h1, h2]; simp only [h3]; exact importBody_congr hs h5
    · exact importBody_congr hs h
  · intro hmu
    unfold runValidate validateFn
    rcases hm with ⟨e, h1, h2⟩ | ⟨m, m', h1, h2, h3, h4, h5⟩
    · rw [h1, h2]
    · rw [h1, h2]
      simp only [h3, h4 hmu, importBody_congr hs h5]

/-! ## C02 -/

theorem update_mem_iff {d e : Data} {k : Key} :
    k ∈ (d.update e).keys ↔ k ∈ d.keys ∨ k ∈ e.keys := by
  rw [Dict.mem_keys_update]

theorem rogue_view {ctx : Ctx} {c : ClassDef} {raw d : Data} {k : Key} :
    Rogue ctx c (raw.update (c.view d)) k ↔ Rogue ctx c raw k := by
  unfold Rogue
  rw [update_mem_iff]
  constructor
  · rintro ⟨h1, h2 | h2, h3⟩
    · exact ⟨h1, h2, h3⟩
    · obtain ⟨fd, hfd, _, rfl⟩ := view_keys h2
      exact absurd (name_accepted hfd) h3
  · rintro ⟨h1, h2, h3⟩
    exact ⟨h1, Or.inl h2, h3⟩

/-- Error dict whose non-rogue part belongs to accepted keys. -/
def FieldErrs (m : Mapping) (c : ClassDef) (es : Errs) : Prop :=
  ∀ k t, Dict.get? es k = some t → Accepted m c k ∧ t ≠ .rogue

theorem runSetters_errs {rec : Rec} {ctx : Ctx} {c : ClassDef} {raw : Data} {b : Bool}
    {fds : List FieldDef} (hsub : ∀ fd ∈ fds, fd ∈ c.fields) {es : Errs} {d : Data} {r : Errs × Data}
    (h0 : FieldErrs ctx.mapping c es) (h : runSetters rec ctx raw b fds es d = .ok r) :
    FieldErrs ctx.mapping c r.1 := by
  induction fds generalizing es d with
  | nil => simp [runSetters] at h; subst h; exact h0
  | cons fd fds ih =>
    have hf := hsub fd (by simp)
    have ih' := fun es d => ih (es := es) (d := d) (fun fd' hm => hsub fd' (by simp [hm]))
    have hset : ∀ e : Exc, e.caught = true →
        FieldErrs ctx.mapping c (es.set (.str fd.extName) e.tree) := by
      intro e he k t hk
      rw [Dict.get?_set] at hk
      split at hk
      · rename_i hkk
        injection hk with hk
        subst hk hkk
        exact ⟨extName_accepted hf, tree_ne_rogue he⟩
      · exact h0 k t hk
    simp only [runSetters] at h
    split at h
    · exact ih' es d h0 h
    · split at h
      · split at h
        · rename_i hc; exact ih' _ d (hset _ hc) h
        · split at h
          · exact ih' es d h0 h
          · cases h
      · split at h
        · exact ih' _ _ h0 h
        · split at h
          · rename_i hc; exact ih' _ d (hset _ hc) h
          · split at h
            · exact ih' es d h0 h
            · cases h

theorem runMutate_errs {rec : Rec} {ctx : Ctx} {c : ClassDef} {mu : Mut} {raw : Data} {m : MutRes}
    (h : runMutate rec ctx c mu raw = .ok m) :
    FieldErrs ctx.mapping c m.errs ∧ ∀ k, Rogue ctx c m.raw k ↔ Rogue ctx c raw k := by
  have h0 : FieldErrs ctx.mapping c [] := by intro k t hk; cases hk
  have hs : ∀ fd ∈ c.settable, fd ∈ c.fields := fun fd => settable_sub
  cases mu with
  | inst d =>
    simp only [runMutate] at h
    split at h
    · cases h
    · rename_i hr
      injection h with h
      subst h
      exact ⟨runSetters_errs hs h0 hr, fun k => rogue_view⟩
  | same b =>
    simp only [runMutate] at h
    split at h
    · cases h
    · rename_i hr
      split at h
      · cases h
      · injection h with h
        subst h
        exact ⟨runSetters_errs hs h0 hr, fun k => Iff.rfl⟩

theorem fieldOutcome_err {rec : Rec} {env : Env} {ctx : Ctx} {raw : Data} {b : Bool}
    {fd : FieldDef} {o : Outcome} (h : fieldOutcome rec env ctx raw b fd = .ok o) :
    o.err ≠ some .rogue := by
  unfold fieldOutcome at h
  simp only [] at h
  split at h
  · injection h with h; subst h; simp [Outcome.err]
  · split at h
    · split at h <;> (injection h with h; subst h; simp [Outcome.err])
    · split at h
      · rename_i hc
        injection h with h; subst h
        simp only [Outcome.err, ne_eq, Option.some.injEq]
        exact tree_ne_rogue hc
      · cases h

/-- errors after the loop: rogue entries and accepted keys -/
theorem importFields_errs {rec : Rec} {env : Env} {ctx : Ctx} {c : ClassDef} {raw : Data}
    {fds : List FieldDef} (hsub : ∀ fd ∈ fds, fd ∈ c.fields) {a a' : Acc}
    (h0 : ∀ k, Dict.get? a.errs k = some .rogue ↔ Rogue ctx c raw k)
    (h : importFields rec env ctx raw fds a = .ok a') :
    ∀ k, Dict.get? a'.errs k = some .rogue ↔ Rogue ctx c raw k := by
  induction fds generalizing a with
  | nil => simp [importFields] at h; subst h; exact h0
  | cons fd fds ih =>
    simp only [importFields] at h
    split at h
    · cases h
    · rename_i o ho
      refine ih (fun fd' hm => hsub fd' (by simp [hm])) ?_ h
      have herr := fieldOutcome_err ho
      intro k
      cases o with
      | skip => exact h0 k
      | store v => exact h0 k
      | fail t r =>
        simp only [Acc.apply, Dict.get?_set]
        split
        · rename_i hk
          subst hk
          constructor
          · intro hh; exact absurd hh herr
          · rintro ⟨_, _, hh⟩
            exact absurd (extName_accepted (hsub fd (by simp))) hh
        · exact h0 k

theorem errorsOf_ite (es : Errs) (d : Data) :
    errorsOf (if es.isEmpty then .ok d else .error (.data es d)) = es := by
  split
  · rename_i h; rw [List.isEmpty_iff] at h; rw [h]; rfl
  · rfl

theorem dataOf_ite (es : Errs) (d : Data) :
    dataOf (if es.isEmpty then .ok d else .error (.data es d)) = d := by
  split <;> rfl

theorem fieldOutcome_noData {rec : Rec} {env : Env} {ctx : Ctx} {raw : Data} {b : Bool}
    {fd : FieldDef} (es p) : fieldOutcome rec env ctx raw b fd ≠ .error (.data es p) := by
  intro he
  unfold fieldOutcome at he
  simp only [] at he
  split at he
  · cases he
  · split at he
    · split at he <;> cases he
    · split at he
      · cases he
      · rename_i hc
        injection he with he
        subst he
        simp [Exc.caught] at hc

theorem importFields_noData {rec : Rec} {env : Env} {ctx : Ctx} {raw : Data}
    {fds : List FieldDef} {a : Acc} (es p) :
    importFields rec env ctx raw fds a ≠ .error (.data es p) := by
  induction fds generalizing a with
  | nil => intro h; simp [importFields] at h
  | cons fd fds ih =>
    intro h
    simp only [importFields] at h
    split at h
    · rename_i e he
      injection h with h
      subst h
      exact fieldOutcome_noData es p he
    · exact ih h

theorem runSetters_noData {rec : Rec} {ctx : Ctx} {raw : Data} {b : Bool} {fds : List FieldDef}
    {es' : Errs} {d : Data} (es p) : runSetters rec ctx raw b fds es' d ≠ .error (.data es p) := by
  induction fds generalizing es' d with
  | nil => intro h; simp [runSetters] at h
  | cons fd fds ih =>
    intro h
    simp only [runSetters] at h
    split at h
    · exact ih h
    · split at h
      · split at h
        · exact ih h
        · rename_i hc
          split at h
          · exact ih h
          · injection h with h; subst h; simp [Exc.caught] at hc
      · split at h
        · exact ih h
        · split at h
          · exact ih h
          · rename_i hc
            split at h
            · exact ih h
            · injection h with h; subst h; simp [Exc.caught] at hc

theorem runMutate_noData {rec : Rec} {ctx : Ctx} {c : ClassDef} {mu : Mut} {raw : Data} (es p) :
    runMutate rec ctx c mu raw ≠ .error (.data es p) := by
  intro hm
  cases mu with
  | inst d =>
    simp only [runMutate] at hm
    split at hm
    · rename_i he; injection hm with hm; subst hm; exact runSetters_noData _ _ he
    · cases hm
  | same b =>
    simp only [runMutate] at hm
    split at hm
    · rename_i he; injection hm with hm; subst hm; exact runSetters_noData _ _ he
    · split at hm <;> cases hm

theorem modelValidators_noData {c : ClassDef} {mv : Data} {app : Val} {fds : List FieldDef}
    {d : Data} (es p) : modelValidators c mv app fds d ≠ .error (.data es p) := by
  induction fds generalizing d with
  | nil => intro h; simp [modelValidators] at h
  | cons fd fds ih =>
    intro h
    simp only [modelValidators] at h
    split at h
    · exact ih h
    · split at h
      · exact ih h
      · split at h
        · rename_i hh; injection h with h; subst h; simp at hh
        · split at h
          · rename_i he; injection h with h; subst h; exact ih he
          · cases h

theorem popAll_noData {ns : List String} {d : Data} (es p) : popAll ns d ≠ .error (.data es p) := by
  induction ns generalizing d with
  | nil => intro h; simp [popAll] at h
  | cons a ns ih =>
    intro h
    simp only [popAll] at h
    split at h
    · exact ih h
    · cases h

theorem validateModel_noData {c : ClassDef} {mv : Data} {app : Val} {d : Data} (es p) :
    validateModel c mv app d ≠ .error (.data es p) := by
  intro hvm
  unfold validateModel at hvm
  split at hvm
  · rename_i he; injection hvm with hvm; subst hvm; exact modelValidators_noData _ _ he
  · split at hvm
    · rename_i he; injection hvm with hvm; subst hvm; exact popAll_noData _ _ he
    · cases hvm

theorem validateModel_nodup {c : ClassDef} {mv : Data} {app : Val} {d : Data} {r : Errs × Data}
    (hvm : validateModel c mv app d = .ok r) : Dict.Nodup r.1 := by
  unfold validateModel at hvm
  split at hvm
  · cases hvm
  · split at hvm
    · cases hvm
    · injection hvm with hvm
      subst hvm
      exact Dict.nodup_update (by simp [Dict.Nodup, Dict.keys]) _

theorem importBody_rogue {rec : Rec} {env : Env} {ctx : Ctx} {c : ClassDef} {raw : Data}
    {errs0 : Errs} (h0 : FieldErrs ctx.mapping c errs0)
    (hcr : ¬ Crashed (importBody rec env ctx c raw errs0)) :
    ∀ k, Dict.get? (errorsOf (importBody rec env ctx c raw errs0)) k = some .rogue ↔
      Rogue ctx c raw k := by
  have hstart : ∀ k, Dict.get? (startErrs ctx c raw errs0) k = some .rogue ↔ Rogue ctx c raw k := by
    intro k
    rw [startErrs_get, ← mem_rogueKeys]
    split
    · rename_i h; simp [h]
    · rename_i h
      simp only [h, iff_false]
      intro hk
      exact (h0 k _ hk).2 rfl
  intro k
  unfold importBody at hcr ⊢
  simp only [] at hcr ⊢
  change ¬ Crashed (match importFields rec env ctx raw (c.loopFields ctx)
    ⟨ctx.trusted, startErrs ctx c raw errs0⟩ with | .error e => .error e | .ok a => _) at hcr
  change Dict.get? (errorsOf (match importFields rec env ctx raw (c.loopFields ctx)
    ⟨ctx.trusted, startErrs ctx c raw errs0⟩ with | .error e => .error e | .ok a => _)) k = _ ↔ _
  cases hr : importFields rec env ctx raw (c.loopFields ctx) ⟨ctx.trusted, startErrs ctx c raw errs0⟩ with
  | error e =>
    rw [hr] at hcr
    exact absurd ⟨e, rfl, fun es p he => importFields_noData es p (by rw [hr, he])⟩ hcr
  | ok a =>
    have := importFields_errs (fun fd => loop_sub) hstart hr k
    simp only []
    split
    · rename_i he
      rw [List.isEmpty_iff] at he
      rw [he] at this
      exact this
    · exact this

theorem modelValidators_errs {c : ClassDef} {mv : Data} {app : Val} {fds : List FieldDef}
    (hsub : ∀ fd ∈ fds, fd ∈ c.fields) {d : Data} {r : Errs × List String × Data}
    (h : modelValidators c mv app fds d = .ok r) (m : Mapping) :
    ∀ kt ∈ r.1, Accepted m c kt.1 ∧ kt.2 ≠ .rogue := by
  induction fds generalizing d r with
  | nil => simp [modelValidators] at h; subst h; simp
  | cons fd fds ih =>
    have ih' := fun {d} {r} => ih (fun fd' hm => hsub fd' (by simp [hm])) (d := d) (r := r)
    simp only [modelValidators] at h
    split at h
    · exact ih' h
    · split at h
      · exact ih' h
      · split at h
        · cases h
        · rename_i t ht
          split at h
          · cases h
          · rename_i hr
            injection h with h
            subst h
            intro kt hkt
            rcases List.mem_cons.1 hkt with rfl | hkt
            · refine ⟨extName_accepted (hsub fd (by simp)), ?_⟩
              split at ht <;> (try cases ht) <;> simp
            · exact ih' hr kt hkt

theorem get?_update_mem {d e : Errs} {k : Key} {t : ErrTree} (h : Dict.get? (Dict.update d e) k = some t) :
    Dict.get? d k = some t ∨ (k, t) ∈ e := by
  induction e generalizing d with
  | nil => exact Or.inl h
  | cons kv e ih =>
    rw [Dict.update_cons] at h
    rcases ih h with h | h
    · rw [Dict.get?_set] at h
      split at h
      · rename_i hk
        injection h with h'
        right
        rw [← hk, ← h']
        simp
      · exact Or.inl h
    · exact Or.inr (by simp [h])

theorem get?_update_cases {d e : Errs} {k : Key} (hk : k ∉ Dict.keys e) :
    Dict.get? (Dict.update d e) k = Dict.get? d k := Dict.get?_update_none d e hk

theorem validateModel_errs {c : ClassDef} {mv : Data} {app : Val} {d : Data} {r : Errs × Data}
    (h : validateModel c mv app d = .ok r) (m : Mapping) : FieldErrs m c r.1 := by
  unfold validateModel at h
  split at h
  · cases h
  · rename_i hr
    split at h
    · cases h
    · injection h with h
      subst h
      intro k t hk
      rcases get?_update_mem hk with hk | hk
      · cases hk
      · exact modelValidators_errs (fun _ h => h) hr m _ hk

/-- **C02.** In any finished import or model validation (of any schema with any
options), the keys reported as `'Rogue field'` are exactly the rogue keys of the
input: in strict mode the keys that are no field name, serialized name, alias or
mapped name, and without strict mode none.  In particular nothing is accepted in
strict mode while a rogue key is present. -/
theorem C02_strict_rejects_unknown (env : Env) (n : Nat) (ctx : Ctx) (c : ClassDef) (mu : Mut)
    (raw : Data) (run : R Data)
    (hrun : run = runImport env n ctx c mu raw ∨ run = runValidate env n ctx c mu raw)
    (hcr : ¬ Crashed run) :
    (∀ k, (errorsOf run).get? k = some .rogue ↔ Rogue ctx c raw k) ∧
    ((∃ k, Rogue ctx c raw k) → Failed run) := by
  have key : ∀ k, (errorsOf run).get? k = some .rogue ↔ Rogue ctx c raw k := by
    have h0 : FieldErrs ctx.mapping c [] := by intro k t hk; cases hk
    rcases hrun with rfl | rfl
    · unfold runImport importLoop at hcr ⊢
      split
      · rename_i hv
        rw [if_pos hv] at hcr
        cases hm : runMutate (fieldConv env n) ctx c mu raw with
        | error e =>
          rw [hm] at hcr
          exact absurd ⟨e, rfl, fun es p he => runMutate_noData es p (by rw [hm, he])⟩ hcr
        | ok m =>
          rw [hm] at hcr
          obtain ⟨h1, h2⟩ := runMutate_errs hm
          intro k
          rw [← h2 k]
          exact importBody_rogue h1 hcr k
      · rename_i hv
        rw [if_neg hv] at hcr
        exact importBody_rogue h0 hcr
    · unfold runValidate validateFn at hcr ⊢
      cases hm : runMutate (fieldConv env n) ctx c mu raw with
      | error e =>
        rw [hm] at hcr
        exact absurd ⟨e, rfl, fun es p he => runMutate_noData es p (by rw [hm, he])⟩ hcr
      | ok m =>
        rw [hm] at hcr
        obtain ⟨h1, h2⟩ := runMutate_errs hm
        simp only [] at hcr ⊢
        intro k
        rw [← h2 k]
        -- the second half
        have tail : ∀ (es : Errs) (d : Data),
            (Dict.get? es k = some .rogue ↔ Rogue ctx c m.raw k) →
            ¬ Crashed (match validateModel c m.data ctx.app d with
              | .error e => .error e
              | .ok (es2, d') =>
                let es' := es.update es2
                if es'.isEmpty then .ok d' else .error (.data es' d')) →
            (Dict.get? (errorsOf (match validateModel c m.data ctx.app d with
              | .error e => .error e
              | .ok (es2, d') =>
                let es' := es.update es2
                if es'.isEmpty then .ok d' else .error (.data es' d'))) k = some .rogue ↔
              Rogue ctx c m.raw k) := by
          intro es d hk hcr
          cases hvm : validateModel c m.data ctx.app d with
          | error e =>
            rw [hvm] at hcr
            exact absurd ⟨e, rfl, fun es p he => validateModel_noData es p (by rw [hvm, he])⟩ hcr
          | ok r =>
            have hf := validateModel_errs hvm ctx.mapping
            simp only [errorsOf_ite]
            rw [Dict.get?_update _ _ (validateModel_nodup hvm)]
            cases hg : Dict.get? r.1 k with
            | none => simpa using hk
            | some t =>
              have := hf k t hg
              simp only [Option.some_or, Option.some.injEq]
              exact ⟨fun h => absurd h this.2, fun h => absurd this.1 h.2.2⟩
        cases hb : importBody (fieldConv env n) env ctx c m.raw m.errs with
        | ok d =>
          rw [hb] at hcr
          refine tail [] d ?_ hcr
          have := importBody_rogue (rec := fieldConv env n) (env := env) h1
            (by rw [hb]; rintro ⟨e, he, _⟩; cases he) k
          rw [hb] at this
          exact this
        | error e =>
          cases e with
          | data es p =>
            rw [hb] at hcr
            refine tail es p ?_ hcr
            have := importBody_rogue (rec := fieldConv env n) (env := env) h1
              (by rw [hb]; rintro ⟨e, he, hne⟩; injection he with he; exact hne es p he.symm) k
            rw [hb] at this
            exact this
          | _ => rw [hb] at hcr; exact absurd ⟨_, rfl, by intro es p; simp⟩ hcr
  refine ⟨key, fun ⟨k, hk⟩ => ?_⟩
  have := (key k).2 hk
  cases run with
  | ok d => cases this
  | error e =>
    cases e with
    | data es p => exact ⟨es, p, rfl⟩
    | _ => cases this

/-! ## The hypotheses are met -/

/-- `zzz` is not an accepted key of the sample class. -/
theorem Samples.zzz_unknown : ¬ Accepted .empty Samples.order (.str "zzz") := by
  rintro ⟨s, h, (⟨fd, hfd, h'⟩ | ⟨e, he, _⟩)⟩
  · injection h with h; subst h
    simp only [Samples.order, List.mem_cons, List.not_mem_nil, or_false] at hfd
    rcases hfd with rfl | rfl | rfl | rfl | rfl <;> simp at h'
  · cases he

/-- Removing the unknown key `zzz` from the sample input. -/
example : runImport Samples.env 5 Samples.ictx Samples.order (.inst []) Samples.good =
    runImport Samples.env 5 Samples.ictx Samples.order (.inst []) (Samples.good.take 4) := by
  refine (C03_unknown_keys_ignored _ _ _ _ _ _ _ rfl ?_).1
  intro k hk
  have : k ≠ .str "zzz" := by rintro rfl; exact Samples.zzz_unknown hk
  simp [Samples.good, Dict.get?, Ne.symm this]

example := C02_strict_rejects_unknown Samples.env 5 { Samples.ictx with strict := true } Samples.order (.inst []) Samples.good
  _ (Or.inl rfl) (Samples.not_crashed (by rfl))
/-- ... and `zzz` is indeed rogue there. -/
example : Rogue { Samples.ictx with strict := true } Samples.order Samples.good (.str "zzz") :=
  ⟨rfl, by decide, Samples.zzz_unknown⟩

end Verif
