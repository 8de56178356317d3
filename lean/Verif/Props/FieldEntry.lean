import Verif.Props.Methods

/-! # What a run stores for each field, with and without validation (C07, C09, C11, C12)

One relation, `Stored`, says what an import or a validation of any class leaves in the data under the name of a field, given the input. -/
namespace Verif

/-! ## Specification -/

/-- The names other than its own under which the input may supply a field. -/
def otherNames (m : Mapping) (fd : FieldDef) : List String := (ownNames m fd).filter fun s => s ≠ fd.name ∧ s ≠ ""

/-- The input supplies `v` for the field: under the field's own name, else under the first of the other names which occurs. -/
inductive Supplies (raw : Data) (m : Mapping) (fd : FieldDef) : Val → Prop
  | own {v} : raw.get? (.str fd.name) = some v → v ≠ .undef → Supplies raw m fd v
  | other {v} : (∀ w, raw.get? (.str fd.name) = some w → w = .undef) → FirstPresent raw (otherNames m fd) v → v ≠ .undef → Supplies raw m fd v

/-- The input supplies nothing for the field. -/
def Lacks (raw : Data) (m : Mapping) (fd : FieldDef) : Prop := ∀ v, ¬ Supplies raw m fd v

/-- The value which is converted for a field: what the input supplies; for a field which is neither supplied nor trusted the default, if defaults are on and there is one, else `None` if fields are
initialised, else nothing (`Undefined`). -/
inductive Taken (ctx : Ctx) (raw : Data) (fd : FieldDef) : Val → Prop
  | supplied {v} : Supplies raw ctx.mapping fd v → Taken ctx raw fd v
  | default : Lacks raw ctx.mapping fd → Key.str fd.name ∉ ctx.trusted.keys → ctx.defaults = true → fd.field.o.default ≠ .undef →
      Taken ctx raw fd fd.field.o.default
  | initial : Lacks raw ctx.mapping fd → Key.str fd.name ∉ ctx.trusted.keys → (ctx.defaults = false ∨ fd.field.o.default = .undef) →
      ctx.init = true → Taken ctx raw fd .none
  | nothing : Lacks raw ctx.mapping fd → Key.str fd.name ∉ ctx.trusted.keys → (ctx.defaults = false ∨ fd.field.o.default = .undef) →
      ctx.init = false → Taken ctx raw fd .undef

/-- The converter of the field answers `r` for the value `v`. -/
def Answers (env : Env) (ctx : Ctx) (fd : FieldDef) (v : Val) (r : R Val) : Prop :=
  ∃ n, fieldConv env n (innerCtx env ctx fd) true fd.field v = r

/-- What the data holds under the name of the field at the end: a trusted value for which the input supplies nothing is kept; a value that converts is stored; of a nested model that fails the partial data is
stored; for any other failure the default, if defaults are on and there is one, else the trusted value, if any, stays. -/
inductive Stored (env : Env) (ctx : Ctx) (raw : Data) (fd : FieldDef) : Option Val → Prop
  | kept : Lacks raw ctx.mapping fd → Key.str fd.name ∈ ctx.trusted.keys → Stored env ctx raw fd (ctx.trusted.get? (.str fd.name))
  | converted {v w} : Taken ctx raw fd v → Answers env ctx fd v (.ok w) → w ≠ .undef → Stored env ctx raw fd (some w)
  | undefined {v} : Taken ctx raw fd v → Answers env ctx fd v (.ok .undef) → Stored env ctx raw fd (ctx.trusted.get? (.str fd.name))
  | partialData {v es part} : Taken ctx raw fd v → Answers env ctx fd v (.error (.data es part)) → Stored env ctx raw fd (some (.dict part))
  | fallback {v e} : Taken ctx raw fd v → Answers env ctx fd v (.error e) → e.caught = true → (∀ es part, e ≠ .data es part) →
      ctx.defaults = true → fd.field.o.default ≠ .undef → Stored env ctx raw fd (some fd.field.o.default)
  | refused {v e} : Taken ctx raw fd v → Answers env ctx fd v (.error e) → e.caught = true → (∀ es part, e ≠ .data es part) →
      (ctx.defaults = false ∨ fd.field.o.default = .undef) → Stored env ctx raw fd (ctx.trusted.get? (.str fd.name))

/-- The input which the fields see: that of the caller; when validating an instance, the values of the instance, after its setters have run on the input, replace those of the input. -/
def FieldInput (env : Env) (ctx : Ctx) (c : ClassDef) (mu : Mut) (raw raw' : Data) : Prop :=
  match ctx.validate, mu with
  | true, .inst content => ∃ ss content', Prepared env ctx c True content raw ss content' raw'
  | _, _ => raw' = raw

/-! ## Lemmas -/

theorem aliasValue_other {raw : Data} {name : String} {ks : List String} :
    (∀ v, FirstPresent raw (ks.filter fun s => s ≠ name ∧ s ≠ "") v → aliasValue raw name ks = v) ∧
    ((∀ v, ¬ FirstPresent raw (ks.filter fun s => s ≠ name ∧ s ≠ "") v) → aliasValue raw name ks = .undef) := by
  induction ks with
  | nil => exact ⟨fun v h => (by cases h), fun _ => rfl⟩
  | cons k ks ih =>
    unfold aliasValue
    by_cases hk : k ≠ "" ∧ k ≠ name
    · have hf : (k :: ks).filter (fun s => decide (s ≠ name ∧ s ≠ "")) = k :: ks.filter (fun s => decide (s ≠ name ∧ s ≠ "")) := by
        rw [List.filter_cons_of_pos]; simp [hk]
      rw [hf, if_pos hk]
      cases hg : Dict.get? raw (.str k) with
      | some w =>
        refine ⟨fun v h => ?_, fun h => absurd (.here hg) (h w)⟩
        cases h with
        | here h => rw [hg] at h; exact Option.some.inj h
        | later h _ => rw [hg] at h; cases h
      | none =>
        refine ⟨fun v h => ?_, fun h => ih.2 fun v hv => h v (.later hg hv)⟩
        cases h with
        | here h => rw [hg] at h; cases h
        | later _ h => exact ih.1 v h
    · have hf : (k :: ks).filter (fun s => decide (s ≠ name ∧ s ≠ "")) = ks.filter (fun s => decide (s ≠ name ∧ s ≠ "")) := by
        rw [List.filter_cons_of_neg]; simp only [decide_eq_true_eq]; exact fun h => hk h.symm
      rw [hf, if_neg hk]
      exact ih

theorem supplies_iff {raw : Data} {m : Mapping} {fd : FieldDef} {v : Val} : Supplies raw m fd v ↔ inputValue raw m fd = v ∧ v ≠ .undef := by
  have hu : ∀ w : Val, w ≠ .undef → w.isUndef = false := by
    intro w h
    cases hh : w.isUndef with
    | false => rfl
    | true => exact absurd ((Val.isUndef_iff w).1 hh) h
  unfold inputValue
  rw [← ownNames_eq]
  constructor
  · rintro (⟨h, hv⟩ | ⟨h, hf, hv⟩)
    · simp [rawValue, h, hu v hv, hv]
    · have h0 : (rawValue raw fd.name).isUndef = true := by
        unfold rawValue
        cases hg : Dict.get? raw (.str fd.name) with
        | none => rfl
        | some w => rw [h w hg]; rfl
      simp only [h0, if_true]
      exact ⟨aliasValue_other.1 v hf, hv⟩
  · rintro ⟨h, hv⟩
    cases hg : (rawValue raw fd.name).isUndef with
    | false =>
      simp only [hg, Bool.false_eq_true, if_false] at h
      refine .own ?_ hv
      unfold rawValue at h hg
      cases hx : Dict.get? raw (.str fd.name) with
      | none => rw [hx] at hg; cases hg
      | some w => rw [hx] at h; exact congrArg _ h
    | true =>
      simp only [hg, if_true] at h
      refine .other ?_ ?_ hv
      · intro w hw
        unfold rawValue at hg
        rw [hw] at hg
        exact (Val.isUndef_iff w).1 hg
      · apply Classical.byContradiction
        intro hn
        have : ∃ w, FirstPresent raw (otherNames m fd) w := by
          apply Classical.byContradiction
          intro hno
          have := (aliasValue_other (raw := raw) (name := fd.name) (ks := ownNames m fd)).2 fun v hv => hno ⟨v, hv⟩
          rw [h] at this; exact hv this
        obtain ⟨w, hw⟩ := this
        have := aliasValue_other.1 w hw
        rw [h] at this
        subst this; exact hn hw

theorem lacks_iff {raw : Data} {m : Mapping} {fd : FieldDef} : Lacks raw m fd ↔ inputValue raw m fd = .undef := by
  constructor
  · intro h
    apply Classical.byContradiction
    exact fun hn => h _ (supplies_iff.2 ⟨rfl, hn⟩)
  · intro h v hv
    obtain ⟨a, b⟩ := supplies_iff.1 hv
    exact b (a.symm.trans h)

theorem taken_iff {ctx : Ctx} {raw : Data} {fd : FieldDef} {v : Val} :
    Taken ctx raw fd v ↔ Looked ctx raw fd ∧ v = fillValue ctx fd (inputValue raw ctx.mapping fd) := by
  unfold Looked
  constructor
  · rintro (h | ⟨h, ht, hd, hx⟩ | ⟨h, ht, hd, hi⟩ | ⟨h, ht, hd, hi⟩)
    · obtain ⟨a, b⟩ := supplies_iff.1 h
      refine ⟨fun hh => b (a.symm.trans hh.1), ?_⟩
      simp [fillValue, a, isUndef_false b]
    · rw [lacks_iff] at h
      refine ⟨fun hh => ht hh.2, ?_⟩
      have hu : Val.undef.isUndef = true := rfl
      simp [fillValue, h, hd, isUndef_false hx, hu]
    · rw [lacks_iff] at h
      refine ⟨fun hh => ht hh.2, ?_⟩
      rcases hd with hd | hd <;> simp [fillValue, h, hd, hi, Val.isUndef]
    · rw [lacks_iff] at h
      refine ⟨fun hh => ht hh.2, ?_⟩
      rcases hd with hd | hd <;> simp [fillValue, h, hd, hi, Val.isUndef]
  · rintro ⟨h, rfl⟩
    by_cases hu : inputValue raw ctx.mapping fd = .undef
    · have hl : Lacks raw ctx.mapping fd := lacks_iff.2 hu
      have ht : Key.str fd.name ∉ ctx.trusted.keys := fun hh => h ⟨hu, hh⟩
      rw [hu]
      by_cases hd : ctx.defaults = true ∧ fd.field.o.default ≠ .undef
      · have := Taken.default hl ht hd.1 hd.2
        have hu : Val.undef.isUndef = true := rfl
        simpa [fillValue, hd.1, isUndef_false hd.2, hu] using this
      · have hd' : ctx.defaults = false ∨ fd.field.o.default = .undef := by
          cases hx : ctx.defaults with
          | false => exact Or.inl rfl
          | true => exact Or.inr (Classical.byContradiction fun hn => hd ⟨hx, hn⟩)
        cases hi : ctx.init with
        | true =>
          have := Taken.initial hl ht hd' hi
          rcases hd' with hd' | hd' <;> simpa [fillValue, hd', hi, Val.isUndef] using this
        | false =>
          have := Taken.nothing hl ht hd' hi
          rcases hd' with hd' | hd' <;> simpa [fillValue, hd', hi, Val.isUndef] using this
    · have := Taken.supplied (ctx := ctx) (supplies_iff.2 ⟨rfl, hu⟩)
      simpa [fillValue, isUndef_false hu] using this

theorem answers_det {env : Env} {ctx : Ctx} {fd : FieldDef} {v : Val} {r r' : R Val} (h : Answers env ctx fd v r) (h' : Answers env ctx fd v r')
    (h1 : r ≠ .error .fuel) (h2 : r' ≠ .error .fuel) : r' = r := by
  obtain ⟨n, hn⟩ := h
  obtain ⟨m, hm⟩ := h'
  exact fieldConv_det hn hm h1 h2

theorem stored_det {env : Env} {ctx : Ctx} {raw : Data} {fd : FieldDef} {o o' : Option Val} (h : Stored env ctx raw fd o) (h' : Stored env ctx raw fd o') : o' = o := by
  have lk : Lacks raw ctx.mapping fd → Key.str fd.name ∈ ctx.trusted.keys → ∀ v, ¬ Taken ctx raw fd v := by
    intro a b v hv
    exact (taken_iff.1 hv).1 ⟨lacks_iff.1 a, b⟩
  have td : ∀ {v v'}, Taken ctx raw fd v → Taken ctx raw fd v' → v' = v := by
    intro v v' a b
    rw [(taken_iff.1 a).2, (taken_iff.1 b).2]
  have okf : ∀ {w : Val}, (.ok w : R Val) ≠ .error .fuel := by intro w h; cases h
  have df : ∀ {es : Errs} {p : Data}, (.error (.data es p) : R Val) ≠ .error .fuel := by intro es p h; cases h
  have dd : ctx.defaults = true → fd.field.o.default ≠ .undef → (ctx.defaults = false ∨ fd.field.o.default = .undef) → False := by
    rintro a b (h | h)
    · rw [a] at h; cases h
    · exact b h
  cases h with
  | kept a b =>
    cases h' with
    | kept _ _ => rfl
    | converted t _ _ => exact absurd t (lk a b _)
    | undefined t _ => rfl
    | partialData t _ => exact absurd t (lk a b _)
    | fallback t _ _ _ _ _ => exact absurd t (lk a b _)
    | refused _ _ _ _ _ => rfl
  | converted t an hw =>
    cases h' with
    | kept a b => exact absurd t (lk a b _)
    | converted t' an' _ => cases td t t'; cases answers_det an an' okf okf; rfl
    | undefined t' an' => cases td t t'; cases answers_det an an' okf okf; exact absurd rfl hw
    | partialData t' an' => cases td t t'; cases answers_det an an' okf df
    | fallback t' an' hc _ _ _ => cases td t t'; cases answers_det an an' okf (caught_fuel hc)
    | refused t' an' hc _ _ => cases td t t'; cases answers_det an an' okf (caught_fuel hc)
  | undefined t an =>
    cases h' with
    | kept a b => rfl
    | converted t' an' hw => cases td t t'; cases answers_det an an' okf okf; exact absurd rfl hw
    | undefined t' an' => rfl
    | partialData t' an' => cases td t t'; cases answers_det an an' okf df
    | fallback t' an' hc _ _ _ => cases td t t'; cases answers_det an an' okf (caught_fuel hc)
    | refused t' an' hc _ _ => rfl
  | partialData t an =>
    cases h' with
    | kept a b => exact absurd t (lk a b _)
    | converted t' an' _ => cases td t t'; cases answers_det an an' df okf
    | undefined t' an' => cases td t t'; cases answers_det an an' df okf
    | partialData t' an' => cases td t t'; cases answers_det an an' df df; rfl
    | fallback t' an' hc hn _ _ => cases td t t'; cases answers_det an an' df (caught_fuel hc); exact absurd rfl (hn _ _)
    | refused t' an' hc hn _ => cases td t t'; cases answers_det an an' df (caught_fuel hc); exact absurd rfl (hn _ _)
  | fallback t an hc hn hd hx =>
    cases h' with
    | kept a b => exact absurd t (lk a b _)
    | converted t' an' _ => cases td t t'; cases answers_det an an' (caught_fuel hc) okf
    | undefined t' an' => cases td t t'; cases answers_det an an' (caught_fuel hc) okf
    | partialData t' an' => cases td t t'; cases answers_det an' an df (caught_fuel hc); exact absurd rfl (hn _ _)
    | fallback t' an' _ _ _ _ => rfl
    | refused t' an' _ _ h => exact (dd hd hx h).elim
  | refused t an hc hn hd =>
    cases h' with
    | kept a b => rfl
    | converted t' an' _ => cases td t t'; cases answers_det an an' (caught_fuel hc) okf
    | undefined t' an' => rfl
    | partialData t' an' => cases td t t'; cases answers_det an' an df (caught_fuel hc); exact absurd rfl (hn _ _)
    | fallback t' an' _ _ a b => exact (dd a b hd).elim
    | refused t' an' _ _ h => rfl

/-- One field of the loop. -/
theorem fieldRes_stored {env : Env} {n : Nat} {ctx : Ctx} {raw : Data} {fd : FieldDef} {o : Outcome}
    (h : fieldRes (fieldConv env n) env ctx raw fd = .ok o) : Stored env ctx raw fd (o.stored.or (ctx.trusted.get? (.str fd.name))) := by
  unfold fieldRes fieldOutcome at h
  simp only [] at h
  have hhas : ctx.trusted.has (.str fd.name) = true ↔ Key.str fd.name ∈ ctx.trusted.keys := by
    rw [← Dict.get?_isSome]; rfl
  by_cases hs : (inputValue raw ctx.mapping fd).isUndef && ctx.trusted.has (.str fd.name)
  · rw [if_pos hs] at h
    cases h
    rw [Bool.and_eq_true] at hs
    exact .kept (lacks_iff.2 ((Val.isUndef_iff _).1 hs.1)) (hhas.1 hs.2)
  · rw [if_neg hs] at h
    have hl : Looked ctx raw fd := by
      rintro ⟨a, b⟩
      exact hs (by rw [a, hhas.2 b]; rfl)
    have ht : Taken ctx raw fd (fillValue ctx fd (inputValue raw ctx.mapping fd)) := taken_iff.2 ⟨hl, rfl⟩
    cases hr : fieldConv env n (if fd.field.ty.isCompound then subCtx env ctx fd.name else ctx) true fd.field
        (fillValue ctx fd (inputValue raw ctx.mapping fd)) with
    | ok w =>
      rw [hr] at h
      simp only [] at h
      have an : Answers env ctx fd (fillValue ctx fd (inputValue raw ctx.mapping fd)) (.ok w) := ⟨n, hr⟩
      by_cases hw : w.isUndef = true
      · rw [if_pos hw] at h
        cases h
        rw [(Val.isUndef_iff w).1 hw] at an
        exact .undefined ht an
      · rw [if_neg hw] at h
        cases h
        exact .converted ht an fun hh => hw (by rw [hh]; rfl)
    | error e =>
      rw [hr] at h
      simp only [] at h
      have an : Answers env ctx fd (fillValue ctx fd (inputValue raw ctx.mapping fd)) (.error e) := ⟨n, hr⟩
      by_cases hc : e.caught = true
      · rw [if_pos hc] at h
        cases h
        by_cases hd : ∃ es part, e = .data es part
        · obtain ⟨es, part, rfl⟩ := hd
          exact .partialData ht an
        · have hn : ∀ es part, e ≠ .data es part := fun es part hh => hd ⟨es, part, hh⟩
          have hrepl : failRepl ctx fd e = if ctx.defaults && !fd.field.o.default.isUndef then some fd.field.o.default else none := by
            unfold failRepl
            cases e with
            | data es part => exact absurd rfl (hn es part)
            | _ => rfl
          simp only [Outcome.stored, hrepl]
          by_cases hx : (ctx.defaults && !fd.field.o.default.isUndef) = true
          · rw [if_pos hx]
            rw [Bool.and_eq_true, Bool.not_eq_true'] at hx
            exact .fallback ht an hc hn hx.1 fun hh => by rw [hh] at hx; cases hx.2
          · rw [if_neg hx]
            refine .refused ht an hc hn ?_
            cases hdf : ctx.defaults with
            | false => exact Or.inl rfl
            | true =>
              refine Or.inr (Classical.byContradiction fun hu => hx ?_)
              rw [hdf, isUndef_false hu]; rfl
      · rw [if_neg hc] at h; cases h

theorem body_stored {env : Env} {n : Nat} {ctx : Ctx} {c : ClassDef} (hc : c.WF) {raw : Data} {es : Errs}
    (hr : ¬ Crashed (importBody (fieldConv env n) env ctx c raw es)) {fd : FieldDef} (hfd : fd ∈ c.loopFields ctx) :
    Stored env ctx raw fd ((dataOf (importBody (fieldConv env n) env ctx c raw es)).get? (.str fd.name)) := by
  rw [importBody_eq _ _ _ _ hc] at hr ⊢
  cases hos : outcomes (fieldRes (fieldConv env n) env ctx raw) (c.loopFields ctx) with
  | error e =>
    exfalso
    refine hr ⟨e, (by rw [hos]), ?_⟩
    obtain ⟨fd, _, he⟩ := outcomes_error hos
    have := fieldRes_error he
    rintro es p rfl; cases this
  | ok os =>
    simp only []
    have hmem : fd ∈ os.map (·.1) := by rw [outcomes_map_fst hos]; exact hfd
    obtain ⟨⟨fd', o⟩, hp, rfl⟩ := List.mem_map.1 hmem
    have ho := outcomes_mem hos _ hp
    have := importBody_data hc hos hfd (startErrs ctx c raw es) ho
    simp only [dataOf_ite, this]
    exact fieldRes_stored ho

theorem mutate_prepared {env : Env} {n : Nat} {ctx : Ctx} {c : ClassDef} {content raw : Data} {m : MutRes}
    (h : runMutate (fieldConv env n) ctx c (.inst content) raw = .ok m) : ∃ ss, Prepared env ctx c True content raw ss m.data m.raw := by
  unfold runMutate at h
  simp only [] at h
  split at h
  · cases h
  · rename_i es d' hs
    injection h with h; subst h
    obtain ⟨rs, h1, h2, h3⟩ := runSetters_acts settables_some hs
    exact ⟨rs, ⟨h1, h3, fun _ => rfl, fun h => absurd trivial h⟩⟩

theorem fieldInput_det {env : Env} {ctx : Ctx} {c : ClassDef} {mu : Mut} {raw x y : Data} (h : FieldInput env ctx c mu raw x) (h' : FieldInput env ctx c mu raw y) : y = x := by
  unfold FieldInput at h h'
  cases hv : ctx.validate with
  | false => rw [hv] at h h'; simp only [] at h h'; rw [h, h']
  | true =>
    rw [hv] at h h'
    cases mu with
    | inst content =>
      obtain ⟨_, _, h⟩ := h
      obtain ⟨_, _, h'⟩ := h'
      exact (prepared_det h h').2.2
    | same b => simp only [] at h h'; rw [h, h']

/-- On success every field that was looked at converted. -/
theorem body_converts {env : Env} {n : Nat} {ctx : Ctx} {c : ClassDef} (hc : c.WF) {raw d : Data} {es : Errs}
    (h : importBody (fieldConv env n) env ctx c raw es = .ok d) {fd : FieldDef} (hl : fd ∈ c.loopFields ctx) {v : Val} (ht : Taken ctx raw fd v) :
    ∃ w, Answers env ctx fd v (.ok w) := by
  rw [importBody_eq _ _ _ _ hc] at h
  cases hos : outcomes (fieldRes (fieldConv env n) env ctx raw) (c.loopFields ctx) with
  | error e => rw [hos] at h; cases h
  | ok os =>
    rw [hos] at h
    simp only [] at h
    split at h
    · rename_i hemp
      rw [List.isEmpty_iff, applyAll_errs_empty] at hemp
      have hmem : fd ∈ os.map (·.1) := by rw [outcomes_map_fst hos]; exact hl
      obtain ⟨⟨fd', o⟩, hpo, rfl⟩ := List.mem_map.1 hmem
      have ho := outcomes_mem hos _ hpo
      have herr := hemp.2 _ hpo
      obtain ⟨hlk, rfl⟩ := taken_iff.1 ht
      unfold fieldRes fieldOutcome at ho
      simp only [] at ho herr
      split at ho
      · rename_i hsk
        rw [Bool.and_eq_true] at hsk
        exact absurd ⟨(Val.isUndef_iff _).1 hsk.1, (by rw [← Dict.get?_isSome]; exact hsk.2)⟩ hlk
      · split at ho
        · rename_i w hw
          exact ⟨w, n, hw⟩
        · split at ho
          · injection ho with ho; subst ho; simp [Outcome.err] at herr
          · cases ho
    · cases h

/-- The body which a run that does not crash executes. -/
theorem run_body {env : Env} {n : Nat} {ctx : Ctx} {c : ClassDef} {mu : Mut} {raw : Data} (hr : ¬ Crashed (runImport env n ctx c mu raw)) :
    ∃ raw' es, FieldInput env ctx c mu raw raw' ∧ runImport env n ctx c mu raw = importBody (fieldConv env n) env ctx c raw' es := by
  unfold FieldInput
  cases hv : ctx.validate with
  | false => exact ⟨raw, [], rfl, by simp only [runImport, importLoop, hv, Bool.false_eq_true, if_false]⟩
  | true =>
    cases hm : runMutate (fieldConv env n) ctx c mu raw with
    | error e =>
      exfalso
      refine hr ⟨e, (by simp only [runImport, importLoop, hv, if_true, hm]), ?_⟩
      rintro es p rfl
      unfold runMutate at hm
      cases mu with
      | inst content =>
        simp only [] at hm
        split at hm
        · rename_i e' he'
          injection hm with hm; subst hm
          have := runSetters_crash he'; cases this
        · cases hm
      | same b =>
        simp only [] at hm
        split at hm
        · rename_i e' he'
          injection hm with hm; subst hm
          have := runSetters_crash he'; cases this
        · split at hm <;> cases hm
    | ok m =>
      refine ⟨m.raw, m.errs, ?_, by simp only [runImport, importLoop, hv, if_true, hm]⟩
      cases mu with
      | inst content =>
        obtain ⟨ss, h⟩ := mutate_prepared hm
        exact ⟨ss, _, h⟩
      | same b =>
        unfold runMutate at hm
        simp only [] at hm ⊢
        split at hm
        · cases hm
        · split at hm <;> cases hm
          rfl

theorem run_stored {env : Env} {n : Nat} {ctx : Ctx} {c : ClassDef} {mu : Mut} {raw raw' : Data} (hc : c.WF) (hr : ¬ Crashed (runImport env n ctx c mu raw))
    (hi : FieldInput env ctx c mu raw raw') {fd : FieldDef} (hfd : fd ∈ c.fields) (hp : ctx.validate = true ∨ fd.fset = none) :
    Stored env ctx raw' fd ((dataOf (runImport env n ctx c mu raw)).get? (.str fd.name)) := by
  obtain ⟨x, es, hx, he⟩ := run_body hr
  cases fieldInput_det hi hx
  rw [he] at hr ⊢
  exact body_stored hc hr (mem_loopFields.2 ⟨hfd, hp⟩)

theorem run_converts {env : Env} {n : Nat} {ctx : Ctx} {c : ClassDef} {mu : Mut} {raw raw' : Data} (hc : c.WF) (hs : Succeeded (runImport env n ctx c mu raw))
    (hi : FieldInput env ctx c mu raw raw') {fd : FieldDef} (hfd : fd ∈ c.fields) (hp : ctx.validate = true ∨ fd.fset = none) {v : Val} (ht : Taken ctx raw' fd v) :
    ∃ w, Answers env ctx fd v (.ok w) ∧ (dataOf (runImport env n ctx c mu raw)).get? (.str fd.name) = if w.isUndef then ctx.trusted.get? (.str fd.name) else some w := by
  have hr : ¬ Crashed (runImport env n ctx c mu raw) := by
    obtain ⟨d, hd⟩ := hs
    rintro ⟨e, h, _⟩; rw [hd] at h; cases h
  have hst := run_stored hc hr hi hfd hp
  obtain ⟨d, hd⟩ := hs
  obtain ⟨x, es, hx, he⟩ := run_body hr
  cases fieldInput_det hi hx
  rw [he] at hd
  obtain ⟨w, hw⟩ := body_converts hc hd (mem_loopFields.2 ⟨hfd, hp⟩) ht
  refine ⟨w, hw, ?_⟩
  by_cases hu : w = .undef
  · subst hu
    exact stored_det (.undefined ht hw) hst
  · rw [isUndef_false hu]
    exact stored_det (.converted ht hw hu) hst

/-! ## The theorems -/

/-- **C12** (imports and validations of any class).  Whether the run succeeds or fails, the data holds for every field exactly what `Stored` says: the kept trusted value, the converted value, the partial data
of a nested model that failed, the default of a field that failed, or nothing new.  For a validation this is the data before the `validate_<field>` methods see it (C20). -/
theorem C12_every_field (env : Env) (n : Nat) (ctx : Ctx) (c : ClassDef) (mu : Mut) (raw : Data) (hc : c.WF) (hr : ¬ Crashed (runImport env n ctx c mu raw)) :
    ∃ raw', FieldInput env ctx c mu raw raw' ∧ ∀ fd ∈ c.fields, ctx.validate = true ∨ fd.fset = none →
      ∀ o, (dataOf (runImport env n ctx c mu raw)).get? (.str fd.name) = o ↔ Stored env ctx raw' fd o := by
  obtain ⟨x, es, hx, he⟩ := run_body hr
  refine ⟨x, hx, fun fd hfd hp o => ⟨?_, ?_⟩⟩
  · rintro rfl
    exact run_stored hc hr hx hfd hp
  · intro h
    exact stored_det h (run_stored hc hr hx hfd hp)

/-- **C12** (the result of a validation whose methods only check).  Every field holds what `Stored` says, except those whose own method refused the value: they are removed. -/
theorem C12_validated_fields (env : Env) (n : Nat) (ctx : Ctx) (c : ClassDef) (content raw : Data) (hc : c.WF) (hx : DistinctExt c) (hm : PureValidators c)
    (hval : ctx.validate = true) (htr : ctx.trusted.Nodup) (hcr : ¬ Crashed (runValidate env n ctx c (.inst content) raw)) :
    ∃ ss content' raw', Prepared env ctx c True content raw ss content' raw' ∧ ∀ fd ∈ c.fields,
      ((∃ t, Rejects c content' ctx.app (dataOf (runImport env n ctx c (.inst content) raw)) fd t) →
        (dataOf (runValidate env n ctx c (.inst content) raw)).get? (.str fd.name) = none) ∧
      ((∀ t, ¬ Rejects c content' ctx.app (dataOf (runImport env n ctx c (.inst content) raw)) fd t) →
        ∀ o, (dataOf (runValidate env n ctx c (.inst content) raw)).get? (.str fd.name) = o ↔ Stored env ctx raw' fd o) := by
  have htidy : TidyMethods c := fun kv h mv d w app d' hd he => by rw [hm kv h mv d w app d' he]; exact hd
  obtain ⟨ss, content', raw', d', rs, h1, hlen, himp, hicr, h2, h3, h4, h5⟩ := validate_run hc hx htidy hval htr hcr
  have hpure : ∀ {fds : List FieldDef} {d d' : Data} {rs : List (FieldDef × ErrTree)}, (fds.map (·.name)).Nodup → MethodsRun c content' ctx.app fds d d' rs → d' = d ∧
      ∀ fd ∈ fds, (∃ t, (fd, t) ∈ rs) ↔ ∃ t, Rejects c content' ctx.app d fd t := by
    intro fds d d' rs hnd h
    have hmem : ∀ {fds : List FieldDef} {d d' : Data} {rs : List (FieldDef × ErrTree)}, MethodsRun c content' ctx.app fds d d' rs → ∀ fd t, (fd, t) ∈ rs → fd ∈ fds := by
      intro fds d d' rs h fd t hr
      have := run_fields h
      exact this.subset (List.mem_map.2 ⟨_, hr, rfl⟩)
    induction h with
    | done => exact ⟨rfl, fun fd h => by cases h⟩
    | @pass fd fds d d' rs hg hrest ih =>
      simp only [List.map_cons, List.nodup_cons] at hnd
      obtain ⟨rfl, ih⟩ := ih hnd.2
      refine ⟨rfl, fun fd' hfd' => ?_⟩
      rcases List.mem_cons.1 hfd' with rfl | hfd'
      · constructor
        · rintro ⟨t, ht⟩
          exact absurd (List.mem_map.2 ⟨_, hmem hrest _ t ht, rfl⟩) hnd.1
        · rintro ⟨t, g, w, e, a, b, u, _⟩
          rcases hg with hg | hg
          · rw [a] at hg; cases hg
          · unfold rawValue at hg; rw [b] at hg; exact absurd hg u
      · exact ih fd' hfd'
    | @accept fd fds g w d d1 d' rs hg hw hu he hrest ih =>
      simp only [List.map_cons, List.nodup_cons] at hnd
      cases hm _ (Dict.mem_of_get? hg) _ _ _ _ _ he
      obtain ⟨rfl, ih⟩ := ih hnd.2
      refine ⟨rfl, fun fd' hfd' => ?_⟩
      rcases List.mem_cons.1 hfd' with rfl | hfd'
      · constructor
        · rintro ⟨t, ht⟩
          exact absurd (List.mem_map.2 ⟨_, hmem hrest _ t ht, rfl⟩) hnd.1
        · rintro ⟨t, g', w', e, a, b, _, x, _⟩
          rw [hg] at a; cases a
          rw [hw] at b; cases b
          rw [he] at x; cases x
      · exact ih fd' hfd'
    | @reject fd fds d d' t rs hrej hrest ih =>
      simp only [List.map_cons, List.nodup_cons] at hnd
      obtain ⟨rfl, ih⟩ := ih hnd.2
      refine ⟨rfl, fun fd' hfd' => ?_⟩
      rcases List.mem_cons.1 hfd' with rfl | hfd'
      · exact ⟨fun _ => ⟨t, hrej⟩, fun _ => ⟨t, by simp⟩⟩
      · rw [← ih fd' hfd']
        constructor
        · rintro ⟨u, hu⟩
          rcases List.mem_cons.1 hu with hu | hu
          · cases hu
            exact absurd (List.mem_map.2 ⟨_, hfd', rfl⟩) hnd.1
          · exact ⟨u, hu⟩
        · rintro ⟨u, hu⟩
          exact ⟨u, by simp [hu]⟩
  obtain ⟨rfl, hrej⟩ := hpure hc h2
  have hfi : FieldInput env ctx c (.inst content) raw raw' := by
    unfold FieldInput; rw [hval]; exact ⟨ss, content', h1⟩
  refine ⟨ss, content', raw', h1, fun fd hfd => ⟨fun hr => ?_, fun hr o => ?_⟩⟩
  · obtain ⟨t, ht⟩ := (hrej fd hfd).2 hr
    rw [h4, if_pos (List.mem_map.2 ⟨_, ht, rfl⟩)]
  · have hno : Key.str fd.name ∉ rs.map (fun q => Key.str q.1.name) := by
      intro h
      obtain ⟨⟨fd', t⟩, hq, hn⟩ := List.mem_map.1 h
      have hfd' : fd' ∈ c.fields := (run_fields h2).subset (List.mem_map.2 ⟨_, hq, rfl⟩)
      injection hn with hn
      cases name_inj hc hfd' hfd hn
      obtain ⟨u, hu⟩ := (hrej fd hfd).1 ⟨t, hq⟩
      exact hr u hu
    rw [h4, if_neg hno]
    have hst := run_stored hc hicr hfi hfd (Or.inl hval)
    constructor
    · rintro rfl; exact hst
    · intro h; exact stored_det h hst

/-- **C09** (imports and validations of any class).  What is stored for a field depends on the input only through the value it supplies: its own name first, else the first of the other names that occurs. -/
theorem C09_any_run (env : Env) (n m : Nat) (ctx : Ctx) (c : ClassDef) (mu mu' : Mut) (raw raw' x x' : Data) (hc : c.WF)
    (hr : ¬ Crashed (runImport env n ctx c mu raw)) (hr' : ¬ Crashed (runImport env m ctx c mu' raw'))
    (hx : FieldInput env ctx c mu raw x) (hx' : FieldInput env ctx c mu' raw' x') (fd : FieldDef) (hfd : fd ∈ c.fields) (hp : ctx.validate = true ∨ fd.fset = none)
    (h : ∀ v, Supplies x ctx.mapping fd v ↔ Supplies x' ctx.mapping fd v) :
    (dataOf (runImport env n ctx c mu raw)).get? (.str fd.name) = (dataOf (runImport env m ctx c mu' raw')).get? (.str fd.name) := by
  have hl : inputValue x ctx.mapping fd = inputValue x' ctx.mapping fd := by
    by_cases hu : inputValue x ctx.mapping fd = .undef
    · rw [hu]
      rw [← lacks_iff] at hu
      exact (lacks_iff.1 fun v hv => hu v ((h v).2 hv)).symm
    · exact (supplies_iff.1 ((h _).1 (supplies_iff.2 ⟨rfl, hu⟩))).1.symm
  have ht : ∀ v, Taken ctx x' fd v → Taken ctx x fd v := by
    intro v hv
    rw [taken_iff] at hv ⊢
    unfold Looked at hv ⊢
    rwa [hl]
  have hs := run_stored hc hr' hx' hfd hp
  refine stored_det (?_ : Stored env ctx x fd _) (run_stored hc hr hx hfd hp)
  generalize (dataOf (runImport env m ctx c mu' raw')).get? (.str fd.name) = o at hs ⊢
  cases hs with
  | kept a b => exact .kept (lacks_iff.2 (hl.trans (lacks_iff.1 a))) b
  | converted t a b => exact .converted (ht _ t) a b
  | undefined t a => exact .undefined (ht _ t) a
  | partialData t a => exact .partialData (ht _ t) a
  | fallback t a b d e f => exact .fallback (ht _ t) a b d e f
  | refused t a b d e => exact .refused (ht _ t) a b d e

/-- **C07** (imports and validations of any class).  On success a supplied value - `None` as well - is converted and stored, and the default plays no part; a field that is neither supplied nor trusted gets its
converted default if defaults are on and there is one, else `None` or nothing, depending on `init_values`. -/
theorem C07_any_run (env : Env) (n : Nat) (ctx : Ctx) (c : ClassDef) (mu : Mut) (raw x : Data) (hc : c.WF) (hs : Succeeded (runImport env n ctx c mu raw))
    (hx : FieldInput env ctx c mu raw x) (fd : FieldDef) (hfd : fd ∈ c.fields) (hp : ctx.validate = true ∨ fd.fset = none) :
    (∀ v, Supplies x ctx.mapping fd v → ∃ w, Answers env ctx fd v (.ok w) ∧
      (dataOf (runImport env n ctx c mu raw)).get? (.str fd.name) = if w.isUndef then ctx.trusted.get? (.str fd.name) else some w) ∧
    (Lacks x ctx.mapping fd → Key.str fd.name ∉ ctx.trusted.keys →
      (ctx.defaults = true → fd.field.o.default ≠ .undef → ∃ w, Answers env ctx fd fd.field.o.default (.ok w) ∧
        (dataOf (runImport env n ctx c mu raw)).get? (.str fd.name) = if w.isUndef then none else some w) ∧
      (ctx.defaults = false ∨ fd.field.o.default = .undef →
        (dataOf (runImport env n ctx c mu raw)).get? (.str fd.name) = if ctx.init then some .none else none)) := by
  refine ⟨fun v hv => run_converts hc hs hx hfd hp (.supplied hv), fun hl ht => ?_⟩
  have hno : ctx.trusted.get? (.str fd.name) = none := by
    cases hg : ctx.trusted.get? (.str fd.name) with
    | none => rfl
    | some v => exact absurd ((Dict.get?_isSome _ _).1 (by rw [hg]; rfl)) ht
  have hfc : ∀ v w, v.isEmpty = true → Answers env ctx fd v (.ok w) → w = v := by
    rintro v w hv ⟨k, hk⟩
    cases k with
    | zero => cases hk
    | succ k =>
      simp only [fieldConv, fieldConvF, hv, if_true] at hk
      split at hk
      · cases hk
      · injection hk with hk; exact hk.symm
  refine ⟨fun hd hu => ?_, fun hd => ?_⟩
  · obtain ⟨w, a, b⟩ := run_converts hc hs hx hfd hp (.default hl ht hd hu)
    rw [hno] at b
    exact ⟨w, a, b⟩
  · cases hi : ctx.init with
    | true =>
      obtain ⟨w, a, b⟩ := run_converts hc hs hx hfd hp (.initial hl ht hd hi)
      cases hfc _ _ rfl a
      rw [b]; rfl
    | false =>
      obtain ⟨w, a, b⟩ := run_converts hc hs hx hfd hp (.nothing hl ht hd hi)
      cases hfc _ _ rfl a
      rw [b, hno]; rfl

/-- **C11** (imports and validations of any class).  A trusted value for which the input supplies nothing stays as it is; a supplied value that converts replaces it; one that is refused leaves it, unless a default
applies or a nested model left partial data. -/
theorem C11_any_run (env : Env) (n : Nat) (ctx : Ctx) (c : ClassDef) (mu : Mut) (raw x : Data) (hc : c.WF) (hr : ¬ Crashed (runImport env n ctx c mu raw))
    (hx : FieldInput env ctx c mu raw x) (fd : FieldDef) (hfd : fd ∈ c.fields) (hp : ctx.validate = true ∨ fd.fset = none) (tv : Val)
    (ht : ctx.trusted.get? (.str fd.name) = some tv) :
    (Lacks x ctx.mapping fd → (dataOf (runImport env n ctx c mu raw)).get? (.str fd.name) = some tv) ∧
    (∀ v w, Supplies x ctx.mapping fd v → Answers env ctx fd v (.ok w) → w ≠ .undef → (dataOf (runImport env n ctx c mu raw)).get? (.str fd.name) = some w) ∧
    (∀ v k ms, Supplies x ctx.mapping fd v → Answers env ctx fd v (.error (.field k ms)) → ctx.defaults = false ∨ fd.field.o.default = .undef →
      (dataOf (runImport env n ctx c mu raw)).get? (.str fd.name) = some tv) := by
  have hst := run_stored hc hr hx hfd hp
  refine ⟨fun hl => ?_, fun v w hv ha hw => stored_det (.converted (.supplied hv) ha hw) hst, fun v k ms hv ha hd => ?_⟩
  · rw [← ht]
    exact stored_det (.kept hl ((Dict.get?_isSome _ _).1 (by rw [ht]; rfl))) hst
  · rw [← ht]
    exact stored_det (.refused (.supplied hv) ha rfl (by intro es p h; cases h) hd) hst

/-! ## The hypotheses are met -/

/-- The setter of `code` accepts `2` and assigns `qty`, which is thereby supplied. -/
theorem Samples.coded_input : FieldInput Samples.codedEnv Samples.vctx Samples.coded (.inst []) [(.str "code", .int 2)] [(.str "code", .int 2), (.str "qty", .int 1)] :=
  ⟨[.assigns [(.str "qty", .int 1)]], [(.str "qty", .int 1)],
    ⟨.cons (.assigns (n := 1) (v := .int 2) (w := .int 2) (f := fun w => match w with | .int 7 => .error (.field .valid ["seven"]) | _ => .ok [(.str "qty", .int 1)]) rfl (by simp) rfl rfl rfl) .nil,
      rfl, fun _ => rfl, fun h => absurd trivial h⟩⟩
/-- The instance's value is used for a required field which the caller's input does not have. -/
example : (dataOf (runImport Samples.codedEnv 5 Samples.vctx Samples.coded (.inst []) [(.str "code", .int 2)])).get? (.str "qty") = some (.int 1) := by
  obtain ⟨w, hw, h⟩ := (C07_any_run Samples.codedEnv 5 Samples.vctx Samples.coded (.inst []) [(.str "code", .int 2)] _ (by unfold ClassDef.WF; decide) ⟨_, rfl⟩ Samples.coded_input
    { name := "qty", field := .mk (.leaf Samples.intLeaf) { required := true } } (by simp [Samples.coded]) (Or.inl rfl)).1 (.int 1) (.own rfl (by simp))
  have hone : Answers Samples.codedEnv Samples.vctx { name := "qty", field := .mk (.leaf Samples.intLeaf) { required := true } } (.int 1) (.ok (.int 1)) := ⟨1, rfl⟩
  cases answers_det hone hw (by intro h; cases h) (by intro h; cases h)
  exact h
example := C12_every_field Samples.codedEnv 5 Samples.vctx Samples.coded (.inst []) [(.str "code", .int 2)] (by unfold ClassDef.WF; decide) (by rintro ⟨e, h, _⟩; cases h)
example := C12_validated_fields Samples.codedEnv 5 Samples.vctx Samples.coded [] [(.str "code", .int 2)] (by unfold ClassDef.WF; decide) (by unfold DistinctExt; decide)
  (by intro nf h; cases h) rfl (by simp [Samples.vctx, Dict.Nodup]) (by rintro ⟨e, h, _⟩; cases h)
/-- The hypotheses of C09, for a field supplied by the instance. -/
example := C09_any_run Samples.codedEnv 5 7 Samples.vctx Samples.coded (.inst []) (.inst []) [(.str "code", .int 2)] [(.str "code", .int 2)] _ _ (by unfold ClassDef.WF; decide)
  (by rintro ⟨e, h, _⟩; cases h) (by rintro ⟨e, h, _⟩; cases h) Samples.coded_input Samples.coded_input
  { name := "qty", field := .mk (.leaf Samples.intLeaf) { required := true } } (by simp [Samples.coded]) (Or.inl rfl) (fun _ => Iff.rfl)
/-- A trusted note survives a validation. -/
example : (dataOf (runImport Samples.env 5 { Samples.vctx with trusted := [(.str "note", .str "t")] } Samples.order (.inst []) Samples.good)).get? (.str "note") = some (.str "t") :=
  (C11_any_run Samples.env 5 { Samples.vctx with trusted := [(.str "note", .str "t")] } Samples.order (.inst []) Samples.good Samples.good Samples.order_wf (by rintro ⟨e, h, _⟩; cases h)
    ⟨[], [], ⟨.nil, rfl, fun _ => rfl, fun h => absurd trivial h⟩⟩ Samples.noteField (by simp [Samples.order, Samples.noteField]) (Or.inl rfl) (.str "t") rfl).1
    (lacks_iff.2 rfl)

end Verif
