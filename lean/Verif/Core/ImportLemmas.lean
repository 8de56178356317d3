import Verif.Core.Import

/-!
# Lemmas about the import loop

Helper lemmas (no property statements here).  The central fact is that the loop
over the fields is a fold of *independent* per-field outcomes.
-/
namespace Verif

/-- Field names are distinct (guaranteed by Python: `schema.fields` is an
`OrderedDict`, `schema.py:20`, `29`). -/
def ClassDef.WF (c : ClassDef) : Prop := (c.fields.map (·.name)).Nodup

namespace Outcome
/-- value stored by an outcome -/
def stored : Outcome → Option Val
  | skip => none
  | store v => some v
  | fail _ r => r
/-- error recorded by an outcome -/
def err : Outcome → Option ErrTree
  | fail t _ => some t
  | _ => none
end Outcome

/-- Folding outcomes. -/
def applyAll : List (FieldDef × Outcome) → Acc → Acc
  | [], a => a
  | p :: ps, a => applyAll ps (a.apply p.1 p.2)

/-- All outcomes, or the first uncaught exception. -/
def outcomes (oc : FieldDef → R Outcome) : List FieldDef → R (List (FieldDef × Outcome))
  | [] => .ok []
  | fd :: fds =>
    match oc fd with
    | .error e => .error e
    | .ok o =>
      match outcomes oc fds with
      | .error e => .error e
      | .ok os => .ok ((fd, o) :: os)

theorem apply_data_has_ne (a : Acc) (fd : FieldDef) (o : Outcome) {k : Key}
    (h : k ≠ .str fd.name) : (a.apply fd o).data.get? k = a.data.get? k := by
  cases o with
  | skip => rfl
  | store v => exact Dict.get?_set_ne _ _ (Ne.symm h)
  | fail t r =>
    cases r with
    | none => rfl
    | some v => exact Dict.get?_set_ne _ _ (Ne.symm h)

theorem importFields_eq (rec : Rec) (env : Env) (ctx : Ctx) (raw : Data) (inD : FieldDef → Bool)
    (fds : List FieldDef) (a : Acc) (hnd : (fds.map (·.name)).Nodup)
    (h : ∀ fd ∈ fds, a.data.has (.str fd.name) = inD fd) :
    importFields rec env ctx raw fds a =
      (match outcomes (fun fd => fieldOutcome rec env ctx raw (inD fd) fd) fds with
        | .error e => .error e
        | .ok os => .ok (applyAll os a)) := by
  induction fds generalizing a with
  | nil => rfl
  | cons fd fds ih =>
    simp only [importFields, outcomes]
    rw [h fd (by simp)]
    cases ho : fieldOutcome rec env ctx raw (inD fd) fd with
    | error e => rfl
    | ok o =>
      simp only []
      simp only [List.map_cons, List.nodup_cons] at hnd
      rw [ih (a.apply fd o) hnd.2]
      · cases outcomes (fun fd => fieldOutcome rec env ctx raw (inD fd) fd) fds <;> rfl
      · intro fd' hfd'
        have hne : Key.str fd'.name ≠ Key.str fd.name := by
          intro heq
          injection heq with heq
          exact hnd.1 (by rw [← heq]; exact List.mem_map_of_mem hfd')
        rw [Dict.has, apply_data_has_ne _ _ _ hne]
        exact h fd' (by simp [hfd'])

theorem outcomes_map_fst {oc : FieldDef → R Outcome} {fds : List FieldDef}
    {os : List (FieldDef × Outcome)} (h : outcomes oc fds = .ok os) : os.map (·.1) = fds := by
  induction fds generalizing os with
  | nil => simp [outcomes] at h; simp [h]
  | cons fd fds ih =>
    simp only [outcomes] at h
    cases ho : oc fd with
    | error e => simp [ho] at h
    | ok o =>
      simp only [ho] at h
      cases hr : outcomes oc fds with
      | error e => simp [hr] at h
      | ok os' =>
        simp only [hr, Except.ok.injEq] at h
        subst h
        simp [ih hr]

theorem outcomes_mem {oc : FieldDef → R Outcome} {fds : List FieldDef}
    {os : List (FieldDef × Outcome)} (h : outcomes oc fds = .ok os) :
    ∀ p ∈ os, oc p.1 = .ok p.2 := by
  induction fds generalizing os with
  | nil => simp [outcomes] at h; simp [h]
  | cons fd fds ih =>
    simp only [outcomes] at h
    cases ho : oc fd with
    | error e => simp [ho] at h
    | ok o =>
      simp only [ho] at h
      cases hr : outcomes oc fds with
      | error e => simp [hr] at h
      | ok os' =>
        simp only [hr, Except.ok.injEq] at h
        subst h
        intro p hp
        rcases List.mem_cons.1 hp with rfl | hp
        · exact ho
        · exact ih hr p hp

theorem outcomes_error {oc : FieldDef → R Outcome} {fds : List FieldDef} {e : Exc}
    (h : outcomes oc fds = .error e) : ∃ fd ∈ fds, oc fd = .error e := by
  induction fds with
  | nil => simp [outcomes] at h
  | cons fd fds ih =>
    simp only [outcomes] at h
    cases ho : oc fd with
    | error e' =>
      simp only [ho, Except.error.injEq] at h
      subst h
      exact ⟨fd, by simp, ho⟩
    | ok o =>
      simp only [ho] at h
      cases hr : outcomes oc fds with
      | error e' =>
        simp only [hr, Except.error.injEq] at h
        subst h
        obtain ⟨fd', hm, hfd'⟩ := ih hr
        exact ⟨fd', by simp [hm], hfd'⟩
      | ok os' => simp [hr] at h

theorem outcomes_ok_of {oc : FieldDef → R Outcome} {fds : List FieldDef}
    (h : ∀ fd ∈ fds, ∃ o, oc fd = .ok o) : ∃ os, outcomes oc fds = .ok os := by
  induction fds with
  | nil => exact ⟨[], rfl⟩
  | cons fd fds ih =>
    obtain ⟨o, ho⟩ := h fd (by simp)
    obtain ⟨os, hos⟩ := ih fun fd' hm => h fd' (by simp [hm])
    exact ⟨(fd, o) :: os, by simp [outcomes, ho, hos]⟩

theorem outcomes_congr {oc oc' : FieldDef → R Outcome} {fds : List FieldDef}
    (h : ∀ fd ∈ fds, oc fd = oc' fd) : outcomes oc fds = outcomes oc' fds := by
  induction fds with
  | nil => rfl
  | cons fd fds ih =>
    simp only [outcomes]
    rw [h fd (by simp), ih fun fd' hm => h fd' (by simp [hm])]

/-- Lookup in the data after all outcomes. -/
theorem applyAll_get_not_mem (os : List (FieldDef × Outcome)) (a : Acc) {k : Key}
    (h : ∀ p ∈ os, k ≠ .str p.1.name) : (applyAll os a).data.get? k = a.data.get? k := by
  induction os generalizing a with
  | nil => rfl
  | cons p os ih =>
    rw [applyAll, ih _ fun q hq => h q (by simp [hq]),
      apply_data_has_ne _ _ _ (h p (by simp))]

theorem apply_get_self (a : Acc) (fd : FieldDef) (o : Outcome) :
    (a.apply fd o).data.get? (.str fd.name) = o.stored.or (a.data.get? (.str fd.name)) := by
  cases o with
  | skip => rfl
  | store v => simp [Acc.apply, Outcome.stored]
  | fail t r => cases r <;> simp [Acc.apply, Outcome.stored]

theorem applyAll_get (os : List (FieldDef × Outcome)) (a : Acc)
    (hnd : (os.map (·.1.name)).Nodup) {p : FieldDef × Outcome} (hp : p ∈ os) :
    (applyAll os a).data.get? (.str p.1.name) =
      p.2.stored.or (a.data.get? (.str p.1.name)) := by
  induction os generalizing a with
  | nil => cases hp
  | cons q os ih =>
    simp only [List.map_cons, List.nodup_cons] at hnd
    rcases List.mem_cons.1 hp with rfl | hp
    · rw [applyAll, applyAll_get_not_mem, apply_get_self]
      intro q hq heq
      injection heq with heq
      exact hnd.1 (List.mem_map.2 ⟨q, hq, heq.symm⟩)
    · rw [applyAll, ih _ hnd.2 hp, apply_data_has_ne]
      intro heq
      injection heq with heq
      exact hnd.1 (List.mem_map.2 ⟨p, hp, heq⟩)

theorem apply_errs_keys (a : Acc) (fd : FieldDef) (o : Outcome) (k : Key) :
    k ∈ (a.apply fd o).errs.keys ↔ k ∈ a.errs.keys ∨ (o.err.isSome ∧ k = .str fd.extName) := by
  cases o with
  | skip => simp [Acc.apply, Outcome.err]
  | store v => simp [Acc.apply, Outcome.err]
  | fail t r =>
    simp only [Acc.apply, Outcome.err, Dict.mem_keys_set]
    simp [or_comm]

theorem applyAll_errs_keys (os : List (FieldDef × Outcome)) (a : Acc) (k : Key) :
    k ∈ (applyAll os a).errs.keys ↔
      k ∈ a.errs.keys ∨ ∃ p ∈ os, p.2.err.isSome ∧ k = .str p.1.extName := by
  induction os generalizing a with
  | nil => simp [applyAll]
  | cons p os ih =>
    rw [applyAll, ih, apply_errs_keys]
    simp only [List.mem_cons, exists_eq_or_imp, or_assoc]

theorem applyAll_errs_get_not_mem (os : List (FieldDef × Outcome)) (a : Acc) {k : Key}
    (h : ∀ p ∈ os, p.2.err.isSome → k ≠ .str p.1.extName) :
    (applyAll os a).errs.get? k = a.errs.get? k := by
  induction os generalizing a with
  | nil => rfl
  | cons p os ih =>
    rw [applyAll, ih _ fun q hq => h q (by simp [hq])]
    have := h p (by simp)
    cases hp : p.2 with
    | skip => rfl
    | store v => rfl
    | fail t r =>
      simp only [hp, Outcome.err, Option.isSome_some, true_implies] at this
      exact Dict.get?_set_ne _ _ (Ne.symm this)

theorem applyAll_errs_get (os : List (FieldDef × Outcome)) (a : Acc)
    (hnd : (os.map (·.1.extName)).Nodup) {p : FieldDef × Outcome} (hp : p ∈ os)
    (ha : Key.str p.1.extName ∉ a.errs.keys) :
    (applyAll os a).errs.get? (.str p.1.extName) = p.2.err := by
  induction os generalizing a with
  | nil => cases hp
  | cons q os ih =>
    simp only [List.map_cons, List.nodup_cons] at hnd
    rcases List.mem_cons.1 hp with rfl | hp
    · rw [applyAll, applyAll_errs_get_not_mem]
      · cases hq : p.2 with
        | skip => simpa [Acc.apply, Outcome.err] using (Dict.get?_eq_none _ _).2 ha
        | store v => simpa [Acc.apply, Outcome.err] using (Dict.get?_eq_none _ _).2 ha
        | fail t r => simp [Acc.apply, Outcome.err]
      · intro q hq _ heq
        injection heq with heq
        exact hnd.1 (List.mem_map.2 ⟨q, hq, heq.symm⟩)
    · rw [applyAll, ih _ hnd.2 hp]
      rw [apply_errs_keys]
      rintro (h | ⟨_, h⟩)
      · exact ha h
      · injection h with h
        exact hnd.1 (List.mem_map.2 ⟨p, hp, h⟩)

theorem applyAll_errs_empty (os : List (FieldDef × Outcome)) (a : Acc) :
    (applyAll os a).errs = [] ↔ a.errs = [] ∧ ∀ p ∈ os, p.2.err = none := by
  have key : ∀ (d : Errs), d = [] ↔ ∀ k, k ∉ d.keys := by
    intro d
    cases d with
    | nil => simp
    | cons kv d => simp only [reduceCtorEq, Dict.keys_cons, List.mem_cons, not_or, false_iff]
                   exact fun h => (h kv.1).1 rfl
  rw [key, key]
  simp only [applyAll_errs_keys, not_or, not_exists, not_and]
  constructor
  · intro h
    refine ⟨fun k => (h k).1, fun p hp => ?_⟩
    have := (h (.str p.1.extName)).2 p hp
    cases hq : p.2.err with
    | none => rfl
    | some t => simp [hq] at this
  · intro h k
    exact ⟨h.1 k, fun p hp hs => by simp [h.2 p hp] at hs⟩

theorem applyAll_nodup (os : List (FieldDef × Outcome)) (a : Acc) (h : a.data.Nodup) :
    (applyAll os a).data.Nodup := by
  induction os generalizing a with
  | nil => exact h
  | cons p os ih =>
    refine ih _ ?_
    cases p.2 with
    | skip => exact h
    | store v => exact Dict.nodup_set h _ _
    | fail t r =>
      cases r with
      | none => exact h
      | some v => exact Dict.nodup_set h _ _

theorem applyAll_errs_nodup (os : List (FieldDef × Outcome)) (a : Acc) (h : a.errs.Nodup) :
    (applyAll os a).errs.Nodup := by
  induction os generalizing a with
  | nil => exact h
  | cons p os ih =>
    refine ih _ ?_
    cases p.2 with
    | skip => exact h
    | store v => exact h
    | fail t r => exact Dict.nodup_set h _ _

/-- Keys of the data after all outcomes. -/
theorem applyAll_data_keys (os : List (FieldDef × Outcome)) (a : Acc) {k : Key}
    (h : k ∈ (applyAll os a).data.keys) :
    k ∈ a.data.keys ∨ ∃ p ∈ os, k = .str p.1.name := by
  by_cases hk : ∃ p ∈ os, k = .str p.1.name
  · exact Or.inr hk
  · left
    rw [← Dict.get?_isSome] at h ⊢
    rwa [applyAll_get_not_mem os a (fun p hp heq => hk ⟨p, hp, heq⟩)] at h

/-! ## `importBody` as a whole -/

/-- The outcome of a field in a loop started with the context's trusted data. -/
def fieldRes (rec : Rec) (env : Env) (ctx : Ctx) (raw : Data) (fd : FieldDef) : R Outcome :=
  fieldOutcome rec env ctx raw (ctx.trusted.has (.str fd.name)) fd

/-- Errors before the loop: setter errors and rogue keys. -/
def startErrs (ctx : Ctx) (c : ClassDef) (raw : Data) (errs0 : Errs) : Errs :=
  (rogueKeys ctx c raw).foldl (fun es k => Dict.set es k .rogue) errs0

theorem loopFields_nodup {c : ClassDef} (hc : c.WF) (ctx : Ctx) :
    ((c.loopFields ctx).map (·.name)).Nodup := by
  unfold ClassDef.loopFields ClassDef.plain
  split
  · exact hc
  · exact hc.sublist (List.filter_sublist.map _)

theorem importBody_eq (rec : Rec) (env : Env) (ctx : Ctx) (c : ClassDef) (hc : c.WF) (raw : Data)
    (errs0 : Errs) :
    importBody rec env ctx c raw errs0 =
      (match outcomes (fieldRes rec env ctx raw) (c.loopFields ctx) with
        | .error e => .error e
        | .ok os =>
          let a := applyAll os ⟨ctx.trusted, startErrs ctx c raw errs0⟩
          let data := copySettable c ctx raw a.data
          if a.errs.isEmpty then .ok data else .error (.data a.errs data)) := by
  unfold importBody
  simp only []
  rw [importFields_eq rec env ctx raw (fun fd => ctx.trusted.has (.str fd.name)) _ _
    (loopFields_nodup hc ctx) (fun fd _ => rfl)]
  have : (fun fd => fieldOutcome rec env ctx raw (ctx.trusted.has (.str fd.name)) fd) =
      fieldRes rec env ctx raw := rfl
  simp only [this]
  cases outcomes (fieldRes rec env ctx raw) (c.loopFields ctx) <;> rfl

theorem mem_startErrs (ctx : Ctx) (c : ClassDef) (raw : Data) (errs0 : Errs) (k : Key) :
    k ∈ (startErrs ctx c raw errs0).keys ↔ k ∈ errs0.keys ∨ k ∈ rogueKeys ctx c raw := by
  unfold startErrs
  generalize rogueKeys ctx c raw = ks
  induction ks generalizing errs0 with
  | nil => simp
  | cons x ks ih =>
    rw [List.foldl_cons, ih, Dict.mem_keys_set, List.mem_cons]
    constructor
    · rintro ((h | h) | h) <;> simp [h]
    · rintro (h | h | h) <;> simp [h]

theorem startErrs_nodup (ctx : Ctx) (c : ClassDef) (raw : Data) (errs0 : Errs) (h : errs0.Nodup) :
    (startErrs ctx c raw errs0).Nodup := by
  unfold startErrs
  generalize rogueKeys ctx c raw = ks
  induction ks generalizing errs0 with
  | nil => exact h
  | cons x ks ih => exact ih _ (Dict.nodup_set h _ _)

theorem startErrs_get (ctx : Ctx) (c : ClassDef) (raw : Data) (errs0 : Errs) (k : Key) :
    (startErrs ctx c raw errs0).get? k =
      if k ∈ rogueKeys ctx c raw then some .rogue else errs0.get? k := by
  unfold startErrs
  generalize rogueKeys ctx c raw = ks
  induction ks generalizing errs0 with
  | nil => simp
  | cons x ks ih =>
    rw [List.foldl_cons, ih, Dict.get?_set]
    by_cases h1 : k ∈ ks
    · simp [h1]
    · by_cases h2 : x = k
      · subst h2; simp
      · have : ¬ k = x := fun h => h2 h.symm
        simp [h1, h2, this]

/-- Lookup after copying the settable fields. -/
theorem foldSettable_get (raw : Data) (fds : List FieldDef) (d : Data) (k : Key) :
    (fds.foldl (fun d fd => d.set (.str fd.name) (rawValue raw fd.name)) d).get? k =
      if (∃ fd ∈ fds, k = .str fd.name) then
        some (match k with | .str s => rawValue raw s | .int _ => .undef)
      else d.get? k := by
  induction fds generalizing d with
  | nil => simp
  | cons fd fds ih =>
    rw [List.foldl_cons, ih, Dict.get?_set]
    by_cases h1 : ∃ fd' ∈ fds, k = .str fd'.name
    · simp [h1]
    · by_cases h2 : Key.str fd.name = k
      · subst h2; simp
      · have : ¬ k = .str fd.name := fun h => h2 h.symm
        simp [h1, h2, this]

theorem copySettable_get (c : ClassDef) (ctx : Ctx) (raw d : Data) (k : Key)
    (h : ctx.validate = true ∨ ∀ fd ∈ c.settable, k ≠ .str fd.name) :
    (copySettable c ctx raw d).get? k = d.get? k := by
  unfold copySettable
  rcases h with h | h
  · simp [h]
  · split
    · rfl
    · rw [foldSettable_get, if_neg]
      rintro ⟨fd, hfd, heq⟩
      exact h fd hfd heq

theorem copySettable_get_settable (c : ClassDef) (ctx : Ctx) (raw d : Data) (fd : FieldDef)
    (hv : ctx.validate = false) (h : fd ∈ c.settable) :
    (copySettable c ctx raw d).get? (.str fd.name) = some (rawValue raw fd.name) := by
  unfold copySettable
  simp only [hv, Bool.false_eq_true, if_false]
  rw [foldSettable_get, if_pos ⟨fd, h, rfl⟩]

theorem copySettable_nodup (c : ClassDef) (ctx : Ctx) (raw d : Data) (h : d.Nodup) :
    (copySettable c ctx raw d).Nodup := by
  unfold copySettable
  split
  · exact h
  · generalize c.settable = fds
    induction fds generalizing d with
    | nil => exact h
    | cons fd fds ih => exact ih _ (Dict.nodup_set h _ _)

theorem mem_loopFields {c : ClassDef} {ctx : Ctx} {fd : FieldDef} :
    fd ∈ c.loopFields ctx ↔ fd ∈ c.fields ∧ (ctx.validate = true ∨ fd.fset = none) := by
  unfold ClassDef.loopFields ClassDef.plain
  split
  · rename_i h; simp [h]
  · rename_i h
    simp [h, List.mem_filter]

theorem name_inj {c : ClassDef} (hc : c.WF) {fd fd' : FieldDef} (h : fd ∈ c.fields)
    (h' : fd' ∈ c.fields) (hn : fd.name = fd'.name) : fd = fd' := by
  unfold ClassDef.WF at hc
  generalize c.fields = l at *
  induction l with
  | nil => cases h
  | cons x l ih =>
    simp only [List.map_cons, List.nodup_cons] at hc
    rcases List.mem_cons.1 h with rfl | h1 <;> rcases List.mem_cons.1 h' with rfl | h2
    · rfl
    · exact absurd (List.mem_map.2 ⟨fd', h2, hn.symm⟩) hc.1
    · exact absurd (List.mem_map.2 ⟨fd, h1, hn⟩) hc.1
    · exact ih hc.2 h1 h2

/-- Data of a finished import (whether it succeeded or not), field by field. -/
theorem importBody_data {rec : Rec} {env : Env} {ctx : Ctx} {c : ClassDef} (hc : c.WF)
    {raw : Data} {os : List (FieldDef × Outcome)}
    (hos : outcomes (fieldRes rec env ctx raw) (c.loopFields ctx) = .ok os)
    {fd : FieldDef} (hfd : fd ∈ c.loopFields ctx) (errs : Errs) {o : Outcome}
    (ho : fieldRes rec env ctx raw fd = .ok o) :
    (copySettable c ctx raw (applyAll os ⟨ctx.trusted, errs⟩).data).get? (.str fd.name) =
      o.stored.or (ctx.trusted.get? (.str fd.name)) := by
  have hfst := outcomes_map_fst hos
  have hnd : (os.map (·.1.name)).Nodup := by
    have := loopFields_nodup hc ctx
    rw [← hfst] at this
    simpa [List.map_map, Function.comp_def] using this
  have hmem : fd ∈ os.map (·.1) := by rw [hfst]; exact hfd
  obtain ⟨p, hp, hpfd⟩ := List.mem_map.1 hmem
  have hpo := outcomes_mem hos p hp
  rw [hpfd, ho] at hpo
  injection hpo with hpo
  rw [copySettable_get]
  · have := applyAll_get os ⟨ctx.trusted, errs⟩ hnd hp
    rw [hpfd, ← hpo] at this
    exact this
  · rcases (mem_loopFields.1 hfd).2 with h | h
    · exact Or.inl h
    · right
      intro fd' hfd' heq
      injection heq with heq
      simp only [ClassDef.settable, List.mem_filter] at hfd'
      have := name_inj hc (mem_loopFields.1 hfd).1 hfd'.1 heq
      rw [← this, h] at hfd'
      simp at hfd'

end Verif
