import Verif.Samples
import Verif.Spec
import Verif.Core.ImportLemmas

/-! # Properties of plain import (C01-C04, C07-C12) -/
namespace Verif

/-! ## helper lemmas local to this file -/

theorem mem_acceptedKeys (m : Mapping) (c : ClassDef) (k : Key) :
    k ∈ (acceptedKeys m c).map Key.str ↔ Accepted m c k := by
  unfold acceptedKeys Accepted inputKeys
  simp only [List.map_append, List.mem_append, List.mem_map, List.mem_flatMap]
  constructor
  · rintro (⟨s, ⟨fd, hfd, hs⟩, rfl⟩ | ⟨s, ⟨e, he, hs⟩, rfl⟩)
    · refine ⟨s, rfl, Or.inl ⟨fd, hfd, ?_⟩⟩
      rcases hs with ((hs | hs) | hs) | hs
      · exact Or.inl (by simpa using hs)
      · right; left
        cases ho : fd.field.o.serializedName with
        | none => simp [ho] at hs
        | some t =>
          simp only [ho] at hs
          split at hs
          · simp at hs
          · simp only [List.mem_singleton] at hs
            subst hs
            exact ⟨rfl, by assumption⟩
      · simp [Mapping.empty, Mapping.entries] at hs
      · exact Or.inr (Or.inr hs)
    · exact ⟨s, rfl, Or.inr ⟨e, he, hs⟩⟩
  · rintro ⟨s, rfl, ⟨fd, hfd, hs⟩ | ⟨e, he, hs⟩⟩
    · left
      refine ⟨s, ⟨fd, hfd, ?_⟩, rfl⟩
      rcases hs with rfl | ⟨h1, h2⟩ | hs
      · simp
      · left; left; right
        simp [h1, h2]
      · exact Or.inr hs
    · exact Or.inr ⟨s, ⟨e, he, hs⟩, rfl⟩

theorem mem_rogueKeys (ctx : Ctx) (c : ClassDef) (raw : Data) (k : Key) :
    k ∈ rogueKeys ctx c raw ↔ Rogue ctx c raw k := by
  unfold rogueKeys Rogue
  cases hs : ctx.strict with
  | false => simp
  | true =>
    simp only [if_true, List.mem_filter, true_and, Bool.not_eq_true', ← mem_acceptedKeys]
    simp

theorem runImport_conv {env : Env} {n : Nat} {ctx : Ctx} (hv : ctx.validate = false)
    (c : ClassDef) (mu : Mut) (raw : Data) :
    runImport env n ctx c mu raw = importBody (fieldConv env n) env ctx c raw [] := by
  simp [runImport, importLoop, hv]

theorem only_wf (c : ClassDef) (fd : FieldDef) : (only c fd).WF := by
  simp [ClassDef.WF, only]

theorem ownNames_eq (m : Mapping) (fd : FieldDef) : ownNames m fd = inputKeys m fd := by
  unfold ownNames inputKeys
  cases fd.field.o.serializedName with
  | none => simp
  | some s => by_cases h : s = "" <;> simp [h]

theorem restrict_get (raw : Data) (names : List String) (s : String) (h : s ∈ names) :
    (restrict raw names).get? (.str s) = raw.get? (.str s) := by
  unfold restrict
  induction raw with
  | nil => rfl
  | cons kv raw ih =>
    obtain ⟨k, v⟩ := kv
    by_cases hk : k = .str s
    · subst hk
      have : ((names.map Key.str).contains (Key.str s)) = true := by simp [h]
      rw [List.filter_cons_of_pos (by exact this)]
      simp only [Dict.get?, if_true]
    · by_cases hm : ((names.map Key.str).contains k) = true
      · rw [List.filter_cons_of_pos (by exact hm)]
        simp only [Dict.get?, hk, if_false, ih]
      · rw [List.filter_cons_of_neg (by exact hm), ih]
        simp only [Dict.get?, hk, if_false]

theorem restrict_keys {raw : Data} {names : List String} {k : Key}
    (h : k ∈ (restrict raw names).keys) : k ∈ raw.keys ∧ k ∈ names.map Key.str := by
  unfold restrict Dict.keys at *
  simp only [List.mem_map, List.mem_filter] at *
  obtain ⟨kv, ⟨h1, h2⟩, rfl⟩ := h
  exact ⟨⟨kv, h1, rfl⟩, by simpa using h2⟩

theorem aliasValue_congr {raw raw' : Data} {name : String} {ks : List String}
    (h : ∀ s ∈ ks, raw.get? (.str s) = raw'.get? (.str s)) :
    aliasValue raw name ks = aliasValue raw' name ks := by
  induction ks with
  | nil => rfl
  | cons k ks ih =>
    simp only [aliasValue]
    rw [h k (by simp), ih fun s hs => h s (by simp [hs])]

theorem inputValue_congr {raw raw' : Data} {m : Mapping} {fd : FieldDef}
    (h : ∀ s ∈ ownNames m fd, raw.get? (.str s) = raw'.get? (.str s)) :
    inputValue raw m fd = inputValue raw' m fd := by
  have h1 : rawValue raw fd.name = rawValue raw' fd.name := by
    unfold rawValue
    rw [h fd.name (by simp [ownNames])]
  rw [ownNames_eq] at h
  unfold inputValue
  rw [h1, aliasValue_congr h]

theorem fieldRes_congr {rec : Rec} {env : Env} {ctx : Ctx} {raw raw' : Data} {fd : FieldDef}
    (h : ∀ s ∈ ownNames ctx.mapping fd, raw.get? (.str s) = raw'.get? (.str s)) :
    fieldRes rec env ctx raw fd = fieldRes rec env ctx raw' fd := by
  unfold fieldRes fieldOutcome
  rw [inputValue_congr h]

theorem fieldRes_error {rec : Rec} {env : Env} {ctx : Ctx} {raw : Data} {fd : FieldDef} {e : Exc}
    (h : fieldRes rec env ctx raw fd = .error e) : e.caught = false := by
  unfold fieldRes fieldOutcome at h
  simp only [] at h
  split at h
  · cases h
  · split at h
    · split at h <;> cases h
    · split at h
      · cases h
      · injection h with h
        subst h
        rename_i hc
        simpa using hc

theorem solo_rogue {ctx : Ctx} {c : ClassDef} {raw : Data} {fd : FieldDef} :
    rogueKeys ctx (only c fd) (restrict raw (ownNames ctx.mapping fd)) = [] := by
  rw [List.eq_nil_iff_forall_not_mem]
  intro k hk
  rw [mem_rogueKeys] at hk
  obtain ⟨_, hk, hacc⟩ := hk
  have hk := (restrict_keys hk).2
  apply hacc
  obtain ⟨s, hs, rfl⟩ := List.mem_map.1 hk
  unfold Accepted
  refine ⟨s, rfl, ?_⟩
  simp only [ownNames, List.mem_cons, List.mem_append, List.mem_filter, Option.mem_toList] at hs
  rcases hs with rfl | (⟨h1, h2⟩ | h) | h
  · exact Or.inl ⟨fd, by simp [only], Or.inl rfl⟩
  · exact Or.inl ⟨fd, by simp [only], Or.inr (Or.inl ⟨h1, by simpa using h2⟩)⟩
  · right
    cases he : Dict.get? ctx.mapping.entries fd.name with
    | none => simp [he] at h
    | some l =>
      simp only [he, Option.getD_some] at h
      exact ⟨_, Dict.mem_of_get? he, h⟩
  · exact Or.inl ⟨fd, by simp [only], Or.inr (Or.inr h)⟩

/-- What importing one field alone does. -/
theorem solo_eq {env : Env} {n : Nat} {ctx : Ctx} (hv : ctx.validate = false) (c : ClassDef)
    (mu : Mut) (raw : Data) {fd : FieldDef} (hfd : fd.fset = none) :
    solo env n ctx c mu raw fd =
      (match fieldRes (fieldConv env n) env ctx raw fd with
        | .error e => .error e
        | .ok o =>
          let a := Acc.apply ⟨ctx.trusted, []⟩ fd o
          if a.errs.isEmpty then .ok a.data else .error (.data a.errs a.data)) := by
  unfold solo
  rw [runImport_conv hv, importBody_eq _ _ _ _ (only_wf c fd)]
  have h1 : (only c fd).loopFields ctx = [fd] := by
    simp [ClassDef.loopFields, hv, ClassDef.plain, only, hfd]
  have h2 : startErrs ctx (only c fd) (restrict raw (ownNames ctx.mapping fd)) [] = [] := by
    simp [startErrs, solo_rogue]
  have h3 : ∀ d : Data, copySettable (only c fd) ctx (restrict raw (ownNames ctx.mapping fd)) d = d := by
    intro d
    simp [copySettable, hv, ClassDef.settable, only, hfd]
  rw [h1, h2]
  simp only [outcomes, h3]
  rw [fieldRes_congr (fun s hs => restrict_get raw _ s hs)]
  cases fieldRes (fieldConv env n) env ctx raw fd with
  | error e => rfl
  | ok o => rfl

theorem solo_cases {env : Env} {n : Nat} {ctx : Ctx} (hv : ctx.validate = false) (c : ClassDef)
    (mu : Mut) (raw : Data) {fd : FieldDef} (hfd : fd.fset = none) :
    (∃ e, fieldRes (fieldConv env n) env ctx raw fd = .error e ∧ solo env n ctx c mu raw fd = .error e
      ∧ e.caught = false) ∨
    (∃ o, fieldRes (fieldConv env n) env ctx raw fd = .ok o ∧ o.err = none ∧
      solo env n ctx c mu raw fd = .ok (Acc.apply ⟨ctx.trusted, []⟩ fd o).data) ∨
    (∃ o t, fieldRes (fieldConv env n) env ctx raw fd = .ok o ∧ o.err = some t ∧
      solo env n ctx c mu raw fd =
        .error (.data [(.str fd.extName, t)] (Acc.apply ⟨ctx.trusted, []⟩ fd o).data)) := by
  rw [solo_eq hv c mu raw hfd]
  cases h : fieldRes (fieldConv env n) env ctx raw fd with
  | error e => exact Or.inl ⟨e, rfl, rfl, fieldRes_error h⟩
  | ok o =>
    right
    cases o with
    | skip => exact Or.inl ⟨_, rfl, rfl, rfl⟩
    | store v => exact Or.inl ⟨_, rfl, rfl, rfl⟩
    | fail t r => exact Or.inr ⟨_, t, rfl, rfl, rfl⟩

theorem not_crashed_solo {env : Env} {n : Nat} {ctx : Ctx} (hv : ctx.validate = false) (c : ClassDef)
    (mu : Mut) (raw : Data) {fd : FieldDef} (hfd : fd.fset = none)
    (h : ¬ Crashed (solo env n ctx c mu raw fd)) :
    ∃ o, fieldRes (fieldConv env n) env ctx raw fd = .ok o := by
  rcases solo_cases (env := env) (n := n) hv c mu raw hfd with ⟨e, _, h2, h3⟩ | ⟨o, h1, _⟩ | ⟨o, _, h1, _⟩
  · exfalso
    refine h ⟨e, h2, ?_⟩
    rintro es p rfl
    cases h3
  · exact ⟨o, h1⟩
  · exact ⟨o, h1⟩

theorem mem_plain_loop {ctx : Ctx} (hv : ctx.validate = false) {c : ClassDef} {fd : FieldDef} :
    fd ∈ c.loopFields ctx ↔ fd ∈ c.fields ∧ fd.fset = none := by
  rw [mem_loopFields]; simp [hv]

/-! ## C01 -/

/-- **C01.** A plain import of any input, for any schema, any context and any
scalar types: if no field crashes with a foreign exception, then

* it succeeds iff every field imported alone succeeds and no key is rogue;
* otherwise it raises one `DataError` whose keys are exactly the external names of
  the fields that fail alone, plus the rogue keys;
* when external names are distinct, the error reported for a field is the very
  error this field reports when imported alone. -/
theorem C01_all_errors_reported (env : Env) (n : Nat) (ctx : Ctx) (c : ClassDef) (mu : Mut)
    (raw : Data) (hc : c.WF) (hv : ctx.validate = false)
    (hcrash : ∀ fd ∈ c.fields, fd.fset = none → ¬ Crashed (solo env n ctx c mu raw fd)) :
    (Succeeded (runImport env n ctx c mu raw) ↔
      (∀ fd ∈ c.fields, fd.fset = none → Succeeded (solo env n ctx c mu raw fd)) ∧
        ∀ k, ¬ Rogue ctx c raw k) ∧
    (¬ Succeeded (runImport env n ctx c mu raw) → Failed (runImport env n ctx c mu raw)) ∧
    (∀ k, k ∈ (errorsOf (runImport env n ctx c mu raw)).keys ↔
      (∃ fd ∈ c.fields, fd.fset = none ∧ Failed (solo env n ctx c mu raw fd) ∧ k = .str fd.extName)
        ∨ Rogue ctx c raw k) ∧
    (DistinctExt c → ∀ fd ∈ c.fields, fd.fset = none →
      (errorsOf (runImport env n ctx c mu raw)).get? (.str fd.extName) =
        (errorsOf (solo env n ctx c mu raw fd)).get? (.str fd.extName)) := by
  obtain ⟨os, hos⟩ := outcomes_ok_of (oc := fieldRes (fieldConv env n) env ctx raw)
    (fds := c.loopFields ctx) (fun fd hfd => by
      rw [mem_plain_loop hv] at hfd
      exact not_crashed_solo hv c mu raw hfd.2 (hcrash fd hfd.1 hfd.2))
  have hfst := outcomes_map_fst hos
  have hmem := outcomes_mem hos
  -- members of os
  have hin : ∀ p ∈ os, p.1 ∈ c.fields ∧ p.1.fset = none := by
    intro p hp
    rw [← mem_plain_loop hv, ← hfst]
    exact List.mem_map_of_mem hp
  have hof : ∀ fd ∈ c.fields, fd.fset = none → ∃ o, (fd, o) ∈ os ∧
      fieldRes (fieldConv env n) env ctx raw fd = .ok o := by
    intro fd h1 h2
    have : fd ∈ os.map (·.1) := by rw [hfst, mem_plain_loop hv]; exact ⟨h1, h2⟩
    obtain ⟨⟨fd', o⟩, hp, rfl⟩ := List.mem_map.1 this
    exact ⟨o, hp, hmem _ hp⟩
  -- solo in terms of outcomes
  have hsucc : ∀ p ∈ os, Succeeded (solo env n ctx c mu raw p.1) ↔ p.2.err = none := by
    intro p hp
    rcases solo_cases (env := env) (n := n) hv c mu raw (hin p hp).2 with ⟨e, h1, _⟩ | ⟨o, h1, h2, h3⟩ | ⟨o, t, h1, h2, h3⟩
    · rw [hmem p hp] at h1; cases h1
    · rw [hmem p hp] at h1; injection h1 with h1
      simp [Succeeded, h3, h1, h2]
    · rw [hmem p hp] at h1; injection h1 with h1
      simp [Succeeded, h3, h1, h2]
  have hfail : ∀ p ∈ os, Failed (solo env n ctx c mu raw p.1) ↔ p.2.err.isSome := by
    intro p hp
    rcases solo_cases (env := env) (n := n) hv c mu raw (hin p hp).2 with ⟨e, h1, _⟩ | ⟨o, h1, h2, h3⟩ | ⟨o, t, h1, h2, h3⟩
    · rw [hmem p hp] at h1; cases h1
    · rw [hmem p hp] at h1; injection h1 with h1
      simp [Failed, h3, h1, h2]
    · rw [hmem p hp] at h1; injection h1 with h1
      simp [Failed, h3, h1, h2]
  have hrun : runImport env n ctx c mu raw =
      (if (applyAll os ⟨ctx.trusted, startErrs ctx c raw []⟩).errs.isEmpty
        then .ok (copySettable c ctx raw (applyAll os ⟨ctx.trusted, startErrs ctx c raw []⟩).data)
        else .error (.data (applyAll os ⟨ctx.trusted, startErrs ctx c raw []⟩).errs
          (copySettable c ctx raw (applyAll os ⟨ctx.trusted, startErrs ctx c raw []⟩).data))) := by
    rw [runImport_conv hv, importBody_eq _ _ _ _ hc, hos]
  have hstart : startErrs ctx c raw [] = [] ↔ ∀ k, ¬ Rogue ctx c raw k := by
    constructor
    · intro h k hk
      have := (mem_startErrs ctx c raw [] k).2 (Or.inr ((mem_rogueKeys ctx c raw k).2 hk))
      rw [h] at this
      cases this
    · intro h
      have : rogueKeys ctx c raw = [] := by
        rw [List.eq_nil_iff_forall_not_mem]
        intro k hk
        exact h k ((mem_rogueKeys ctx c raw k).1 hk)
      simp [startErrs, this]
  have herr : (applyAll os ⟨ctx.trusted, startErrs ctx c raw []⟩).errs = [] ↔
      (∀ fd ∈ c.fields, fd.fset = none → Succeeded (solo env n ctx c mu raw fd)) ∧
        ∀ k, ¬ Rogue ctx c raw k := by
    rw [applyAll_errs_empty, ← hstart, and_comm]
    refine and_congr ⟨fun h fd h1 h2 => ?_, fun h p hp => ?_⟩ Iff.rfl
    · obtain ⟨o, hp, _⟩ := hof fd h1 h2
      exact (hsucc _ hp).2 (h _ hp)
    · exact (hsucc p hp).1 (h p.1 (hin p hp).1 (hin p hp).2)
  refine ⟨?_, ?_, ?_, ?_⟩
  · rw [hrun, ← herr]
    split
    · rename_i h
      exact ⟨fun _ => List.isEmpty_iff.1 h, fun _ => ⟨_, rfl⟩⟩
    · rename_i h
      constructor
      · rintro ⟨d, hd⟩; cases hd
      · intro h'; exact absurd (List.isEmpty_iff.2 h') h
  · rw [hrun]
    split
    · intro h; exact absurd ⟨_, rfl⟩ h
    · intro _; exact ⟨_, _, rfl⟩
  · intro k
    have hk : k ∈ (errorsOf (runImport env n ctx c mu raw)).keys ↔
        k ∈ (applyAll os ⟨ctx.trusted, startErrs ctx c raw []⟩).errs.keys := by
      rw [hrun]
      split
      · rename_i h
        rw [List.isEmpty_iff.1 h]
        simp [errorsOf]
      · rfl
    rw [hk, applyAll_errs_keys, mem_startErrs, mem_rogueKeys]
    simp only [Dict.keys_nil, List.not_mem_nil, false_or]
    rw [or_comm]
    refine or_congr ⟨?_, ?_⟩ Iff.rfl
    · rintro ⟨p, hp, h1, h2⟩
      exact ⟨p.1, (hin p hp).1, (hin p hp).2, (hfail p hp).2 h1, h2⟩
    · rintro ⟨fd, h1, h2, h3, h4⟩
      obtain ⟨o, hp, _⟩ := hof fd h1 h2
      exact ⟨_, hp, (hfail _ hp).1 h3, h4⟩
  · intro hext fd h1 h2
    obtain ⟨o, hp, ho⟩ := hof fd h1 h2
    have hg : (errorsOf (runImport env n ctx c mu raw)).get? (.str fd.extName) =
        (applyAll os ⟨ctx.trusted, startErrs ctx c raw []⟩).errs.get? (.str fd.extName) := by
      rw [hrun]
      split
      · rename_i h
        rw [List.isEmpty_iff.1 h]
        rfl
      · rfl
    have hnd : (os.map (·.1.extName)).Nodup := by
      have : ((c.loopFields ctx).map (·.extName)).Nodup := by
        unfold ClassDef.loopFields ClassDef.plain
        simp only [hv, Bool.false_eq_true, if_false]
        exact hext.sublist (List.filter_sublist.map _)
      rw [← hfst] at this
      simpa [List.map_map, Function.comp_def] using this
    have hnr : Key.str fd.extName ∉ (startErrs ctx c raw []).keys := by
      rw [mem_startErrs, mem_rogueKeys]
      rintro (h | ⟨_, _, h⟩)
      · cases h
      · apply h
        refine ⟨_, rfl, Or.inl ⟨fd, h1, ?_⟩⟩
        unfold FieldDef.extName
        cases hs : fd.field.o.serializedName with
        | none => exact Or.inl rfl
        | some s =>
          simp only []
          split
          · exact Or.inl rfl
          · exact Or.inr (Or.inl ⟨rfl, by assumption⟩)
    rw [hg, applyAll_errs_get os _ hnd hp hnr]
    rcases solo_cases (env := env) (n := n) hv c mu raw h2 with ⟨e, h3, _⟩ | ⟨o', h3, h4, h5⟩ | ⟨o', t, h3, h4, h5⟩
    · rw [ho] at h3; cases h3
    · rw [ho] at h3; injection h3 with h3; subst h3
      simp [h4, h5, errorsOf]
    · rw [ho] at h3; injection h3 with h3; subst h3
      simp [h4, h5, errorsOf, Dict.get?]

/-! ## C12 -/

theorem run_shape {env : Env} {n : Nat} {ctx : Ctx} {c : ClassDef} (mu : Mut)
    {raw : Data} (hc : c.WF) (hv : ctx.validate = false) :
    (∃ e, runImport env n ctx c mu raw = .error e ∧ e.caught = false) ∨
    ∃ os, outcomes (fieldRes (fieldConv env n) env ctx raw) (c.loopFields ctx) = .ok os ∧
      (runImport env n ctx c mu raw =
        .ok (copySettable c ctx raw (applyAll os ⟨ctx.trusted, startErrs ctx c raw []⟩).data) ∧
        (applyAll os ⟨ctx.trusted, startErrs ctx c raw []⟩).errs = [] ∨
      runImport env n ctx c mu raw =
        .error (.data (applyAll os ⟨ctx.trusted, startErrs ctx c raw []⟩).errs
          (copySettable c ctx raw (applyAll os ⟨ctx.trusted, startErrs ctx c raw []⟩).data)) ∧
        (applyAll os ⟨ctx.trusted, startErrs ctx c raw []⟩).errs ≠ []) := by
  rw [runImport_conv hv, importBody_eq _ _ _ _ hc]
  cases hos : outcomes (fieldRes (fieldConv env n) env ctx raw) (c.loopFields ctx) with
  | error e =>
    obtain ⟨fd, _, h⟩ := outcomes_error hos
    exact Or.inl ⟨e, rfl, fieldRes_error h⟩
  | ok os =>
    right
    refine ⟨os, rfl, ?_⟩
    simp only []
    split
    · rename_i h
      exact Or.inl ⟨rfl, List.isEmpty_iff.1 h⟩
    · rename_i h
      exact Or.inr ⟨rfl, fun h' => h (List.isEmpty_iff.2 h')⟩

theorem caught_not_data {e : Exc} (h : e.caught = false) : ∀ es p, e ≠ .data es p := by
  rintro es p rfl
  cases h

/-- **C12 (main).** Whether a plain import succeeds or fails, the value it leaves for
each field - in the result or in `partial_data` - is exactly what importing that
field alone would have left. -/
theorem C12_data_of_failed_import (env : Env) (n : Nat) (ctx : Ctx) (c : ClassDef) (mu : Mut)
    (raw : Data) (hc : c.WF) (hv : ctx.validate = false)
    (hr : ¬ Crashed (runImport env n ctx c mu raw))
    (fd : FieldDef) (hfd : fd ∈ c.fields) (hp : fd.fset = none) :
    (dataOf (runImport env n ctx c mu raw)).get? (.str fd.name) =
      (dataOf (solo env n ctx c mu raw fd)).get? (.str fd.name) := by
  rcases run_shape (env := env) (n := n) (raw := raw) mu hc hv with ⟨e, h1, h2⟩ | ⟨os, hos, h⟩
  · exact absurd ⟨e, h1, caught_not_data h2⟩ hr
  · have hl : fd ∈ c.loopFields ctx := (mem_plain_loop hv).2 ⟨hfd, hp⟩
    have hmem : fd ∈ os.map (·.1) := by rw [outcomes_map_fst hos]; exact hl
    obtain ⟨⟨fd', o⟩, hpo, rfl⟩ := List.mem_map.1 hmem
    have ho := outcomes_mem hos _ hpo
    have hd := importBody_data hc hos hl (startErrs ctx c raw []) ho
    have hrun : (dataOf (runImport env n ctx c mu raw)).get? (.str fd'.name) =
        o.stored.or (ctx.trusted.get? (.str fd'.name)) := by
      rcases h with ⟨h, _⟩ | ⟨h, _⟩ <;> rw [h] <;> exact hd
    rw [hrun]
    rcases solo_cases (env := env) (n := n) hv c mu raw hp with ⟨e, h3, _⟩ | ⟨o', h3, h4, h5⟩ | ⟨o', t, h3, h4, h5⟩
    · rw [ho] at h3; cases h3
    · rw [ho] at h3; injection h3 with h3; subst h3
      rw [h5]; exact (apply_get_self ⟨ctx.trusted, []⟩ fd' o).symm
    · rw [ho] at h3; injection h3 with h3; subst h3
      rw [h5]; exact (apply_get_self ⟨ctx.trusted, []⟩ fd' o).symm

/-! ## The hypotheses are met -/

example := C01_all_errors_reported Samples.env 5 Samples.ictx Samples.order (.inst []) Samples.bad Samples.order_wf rfl
  (Samples.none_crashes (by rfl))
/-- In the sample four fields fail: the keys are reported together. -/
example : (errorsOf (runImport Samples.env 5 Samples.ictx Samples.order (.inst []) Samples.bad)).keys =
    [.str "id", .str "items", .str "prices", .str "parent"] := by rfl
/-- In strict mode the unknown key is reported too. -/
example : (errorsOf (runImport Samples.env 5 { Samples.ictx with strict := true } Samples.order (.inst []) Samples.bad)).keys =
    [.str "zzz", .str "id", .str "items", .str "prices", .str "parent"] := by rfl
example := C12_data_of_failed_import Samples.env 5 Samples.ictx Samples.order (.inst []) Samples.bad Samples.order_wf rfl
  (Samples.not_crashed (by rfl))

end Verif
