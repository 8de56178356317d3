import Verif.Samples
import Verif.Props.Compound

/-! # C15: the error tree mirrors the data tree -/
namespace Verif

/-! ## Specification vocabulary -/

/-- Path `p` in an error tree leads to the (non-nested) error `t`. -/
inductive At : ErrTree → List Key → ErrTree → Prop
  | here {t} : (∀ es, t ≠ .node es) → At t [] t
  | down {es k t p u} : Dict.get? es k = some t → At t p u → At (.node es) (k :: p) u

/-- The model class and raw data a model-valued field opens for the input value. -/
inductive Opens (env : Env) : FType → Val → ClassDef → Data → Prop
  | dict {cls d c} : env.cls cls = some c → Opens env (.model cls) (.dict d) c d
  | inst {cls k d c} : env.isSub k cls = true → env.cls k = some c →
      Opens env (.model cls) (.inst k d) c (c.view d)
  | poly {p : PolySpec} {d k c} : p.findModel env (.dict d) = .ok k → env.cls k = some c →
      Opens env (.poly p) (.dict d) c d

/-- The value is not of the kind the compound type expects at all. -/
inductive Unusable (env : Env) : FType → Val → Msg → Prop
  | list {inner mn mx v} : coerceList env v = none → Unusable env (.list inner mn mx) v "list"
  | dict {inner co v} : v.isDict = false → Unusable env (.dict inner co) v "dict"
  | model {cls v} : v.isDict = false → (∀ k d, v ≠ .inst k d) → Unusable env (.model cls) v "model"
  | inst {cls k d} : env.isSub k cls = false → Unusable env (.model cls) (.inst k d) "model"
  | poly {p : PolySpec} {v} : p.allowed env v = false → v.isDict = false → Unusable env (.poly p) v "poly"

/-- The context in which the input of field `fd` is converted. -/
def innerCtx (env : Env) (ctx : Ctx) (fd : FieldDef) : Ctx :=
  if fd.field.ty.isCompound then subCtx env ctx fd.name else ctx

/-- The input of `fd` is looked at: it is given, or no trusted value is there instead. -/
def Looked (ctx : Ctx) (raw : Data) (fd : FieldDef) : Prop :=
  ¬ (inputValue raw ctx.mapping fd = .undef ∧ Key.str fd.name ∈ ctx.trusted.keys)

/-- `Problem env ctx named f v p t`: at location `p` below the input `v` of field `f` there is a value
whose own conversion fails with `t`.  Own failures: a required value is missing; a scalar is
refused; a value is not a list, mapping or model; a key is unknown in strict mode. -/
inductive Problem (env : Env) : Ctx → Bool → Field → Val → List Key → ErrTree → Prop
  | required {ctx named f v} : f.o.required = true → v.isEmpty = true →
      (named = false ∨ ctx.partial_ = false) → Problem env ctx named f v [] (.leaf .conv ["required"])
  | scalar {ctx named l o v k ms} : v.isEmpty = false → l.toNative ctx.app v = .error (.field k ms) →
      Problem env ctx named (.mk (.leaf l) o) v [] (.leaf k ms)
  | unusable {ctx named t o v m} : v.isEmpty = false → Unusable env t v m →
      Problem env ctx named (.mk t o) v [] (.leaf .conv [m])
  | item {ctx named inner mn mx o v xs i x p t} : coerceList env v = some xs → xs[i]? = some x →
      Problem env ctx false inner x p t →
      Problem env ctx named (.mk (.list inner mn mx) o) v (.int (i : Nat) :: p) t
  | entry {ctx named inner co o kvs k x p t} : (k, x) ∈ kvs → Problem env ctx false inner x p t →
      Problem env ctx named (.mk (.dict inner co) o) (.dict kvs) (k :: p) t
  | field {ctx named ty o v c raw fd p t} : Opens env ty v c raw →
      fd ∈ c.fields → fd.fset = none → Looked ctx raw fd →
      Problem env (innerCtx env ctx fd) true fd.field (fillValue ctx fd (inputValue raw ctx.mapping fd)) p t →
      Problem env ctx named (.mk ty o) v (.str fd.extName :: p) t
  | rogue {ctx named ty o v c raw k} : Opens env ty v c raw →
      Rogue ctx c raw k → Problem env ctx named (.mk ty o) v [k] .rogue

/-- A problem in the input `raw` of model class `c`, at path `p`. -/
def ModelProblem (env : Env) (ctx : Ctx) (c : ClassDef) (raw : Data) (k : Key) (p : List Key) (t : ErrTree) : Prop :=
  (∃ fd ∈ c.fields, fd.fset = none ∧ k = .str fd.extName ∧ Looked ctx raw fd ∧
    Problem env (innerCtx env ctx fd) true fd.field (fillValue ctx fd (inputValue raw ctx.mapping fd)) p t) ∨
  (Rogue ctx c raw k ∧ p = [] ∧ t = .rogue)

/-- All mappings inside the value have distinct keys (as Python mappings do). -/
inductive Tidy (env : Env) : Val → Prop
  | list {xs} : (∀ x ∈ xs, Tidy env x) → Tidy env (.list xs)
  | tuple {xs} : (∀ x ∈ xs, Tidy env x) → Tidy env (.tuple xs)
  | dict {kvs} : (kvs.map (·.1)).Nodup → (∀ kv ∈ kvs, Tidy env kv.2) → Tidy env (.dict kvs)
  | inst {k d} : (∀ kv ∈ env.view k d, Tidy env kv.2) → Tidy env (.inst k d)
  | other {v} : (∀ xs, v ≠ .list xs) → (∀ xs, v ≠ .tuple xs) → (∀ kvs, v ≠ .dict kvs) →
      (∀ k d, v ≠ .inst k d) → Tidy env v

mutual
/-- Scalars refuse with field errors; key functions do not refuse. -/
def FType.Honest : FType → Prop
  | .leaf l => ∀ app v e, l.toNative app v = .error e → e.caught = true → ∃ k ms, e = .field k ms
  | .list inner _ _ => inner.Honest
  | .dict inner co => inner.Honest ∧ ∀ k e, co k = .error e → e.caught = false
  | .model _ => True
  | .poly _ => True
/-- Scalars refuse with field errors; key functions do not refuse. -/
def Field.Honest : Field → Prop
  | .mk t _ => t.Honest
end

/-- A class with distinct names, distinct external names, honest types and tidy defaults. -/
def ClassDef.Proper (env : Env) (c : ClassDef) : Prop :=
  c.WF ∧ DistinctExt c ∧ ∀ fd ∈ c.fields, fd.field.Honest ∧ Tidy env fd.field.o.default

/-- All classes are proper. -/
def Env.Proper (env : Env) : Prop := ∀ k c, env.cls k = some c → c.Proper env

/-! ## Lemmas -/

/-- The reported problems of a result. -/
def Rep {α : Type} (r : R α) (p : List Key) (t : ErrTree) : Prop :=
  ∃ e, r = .error e ∧ At e.tree p t

/-- The result is not a crash. -/
def NoCrash {α : Type} (r : R α) : Prop := ∀ e, r = .error e → e.caught = true

theorem rep_ok {α : Type} {a : α} {p : List Key} {t : ErrTree} : ¬ Rep (.ok a : R α) p t := by
  rintro ⟨e, h, _⟩; cases h

theorem at_leaf {k : FKind} {ms : List Msg} {p : List Key} {t : ErrTree} :
    At (.leaf k ms) p t ↔ p = [] ∧ t = .leaf k ms := by
  constructor
  · intro h; cases h; exact ⟨rfl, rfl⟩
  · rintro ⟨rfl, rfl⟩; exact .here (by intro es h; cases h)

theorem at_node {es : Errs} {p : List Key} {t : ErrTree} :
    At (.node es) p t ↔ ∃ k q u, p = k :: q ∧ Dict.get? es k = some u ∧ At u q t := by
  constructor
  · intro h
    cases h with
    | here h => exact absurd rfl (h es)
    | down h1 h2 => exact ⟨_, _, _, rfl, h1, h2⟩
  · rintro ⟨k, q, u, rfl, h1, h2⟩; exact .down h1 h2

theorem at_rogue {p : List Key} {t : ErrTree} : At .rogue p t ↔ p = [] ∧ t = .rogue := by
  constructor
  · intro h; cases h; exact ⟨rfl, rfl⟩
  · rintro ⟨rfl, rfl⟩; exact .here (by intro es h; cases h)

/-- What one field of the loop contributes. -/
theorem fieldRes_paths {rec : Rec} {env : Env} {ctx : Ctx} {raw : Data} {fd : FieldDef} {o : Outcome}
    (h : fieldRes rec env ctx raw fd = .ok o) (p : List Key) (t : ErrTree) :
    (∃ u, o.err = some u ∧ At u p t) ↔
      Looked ctx raw fd ∧ NoCrash (rec (innerCtx env ctx fd) true fd.field
        (fillValue ctx fd (inputValue raw ctx.mapping fd))) ∧
      Rep (rec (innerCtx env ctx fd) true fd.field (fillValue ctx fd (inputValue raw ctx.mapping fd))) p t := by
  unfold fieldRes fieldOutcome at h
  simp only [] at h
  have hlook : ((inputValue raw ctx.mapping fd).isUndef && ctx.trusted.has (.str fd.name)) = true ↔
      ¬ Looked ctx raw fd := by
    unfold Looked
    rw [Classical.not_not, Bool.and_eq_true, Val.isUndef_iff, Dict.has_iff]
  split at h
  · rename_i hs
    injection h with h; subst h
    have := hlook.1 hs
    simp [Outcome.err, this]
  · rename_i hs
    have hl : Looked ctx raw fd := Classical.not_not.1 fun hh => hs (hlook.2 hh)
    split at h
    · rename_i w hw
      have : o.err = none := by
        split at h <;> (injection h with h; subst h; rfl)
      rw [this]
      simp only [reduceCtorEq, false_and, exists_false, false_iff]
      rintro ⟨_, _, hr⟩
      rw [show innerCtx env ctx fd = _ from rfl] at hr
      unfold innerCtx at hr
      rw [hw] at hr
      exact rep_ok hr
    · rename_i e he
      split at h
      · rename_i hc
        injection h with h; subst h
        have he' : rec (innerCtx env ctx fd) true fd.field (fillValue ctx fd (inputValue raw ctx.mapping fd)) = .error e := he
        rw [he']
        constructor
        · rintro ⟨u, h1, h2⟩
          injection h1 with h1; subst h1
          exact ⟨hl, fun e' he' => by injection he' with he'; rw [← he']; exact hc, e, rfl, h2⟩
        · rintro ⟨_, _, e', h1, h2⟩
          injection h1 with h1; subst h1
          exact ⟨_, rfl, h2⟩
      · cases h

theorem importBody_paths {rec : Rec} {env : Env} {ctx : Ctx} {c : ClassDef} {P : FieldDef → Prop} (hc : c.WF) (hx : DistinctExt c)
    (hlp : ∀ fd, fd ∈ c.loopFields ctx ↔ fd ∈ c.fields ∧ P fd) {raw : Data} (hr : NoCrash (importBody rec env ctx c raw []))
    (k : Key) (p : List Key) (t : ErrTree) :
    Rep (importBody rec env ctx c raw []) (k :: p) t ↔
      (∃ fd ∈ c.fields, P fd ∧ k = .str fd.extName ∧ Looked ctx raw fd ∧
        NoCrash (rec (innerCtx env ctx fd) true fd.field (fillValue ctx fd (inputValue raw ctx.mapping fd))) ∧
        Rep (rec (innerCtx env ctx fd) true fd.field (fillValue ctx fd (inputValue raw ctx.mapping fd))) p t) ∨
      (Rogue ctx c raw k ∧ p = [] ∧ t = .rogue) := by
  rw [importBody_eq _ _ _ _ hc] at hr ⊢
  cases hos : outcomes (fieldRes rec env ctx raw) (c.loopFields ctx) with
  | error e =>
    exfalso
    have := hr e (by rw [hos])
    obtain ⟨fd, hfd, he⟩ := outcomes_error hos
    unfold fieldRes fieldOutcome at he
    simp only [] at he
    split at he
    · cases he
    · split at he
      · split at he <;> cases he
      · split at he
        · cases he
        · rename_i hcc; injection he with he; subst he; exact hcc this
  | ok os =>
    simp only []
    have hfst := outcomes_map_fst hos
    have hnd : (os.map (·.1.extName)).Nodup := by
      have h1 : ((c.loopFields ctx).map (·.extName)).Nodup := by
        unfold ClassDef.loopFields ClassDef.plain
        split
        · exact hx
        · exact List.Nodup.sublist (List.filter_sublist.map _) hx
      rw [← hfst] at h1
      simpa [List.map_map, Function.comp_def] using h1
    have hin : ∀ q ∈ os, q.1 ∈ c.fields ∧ P q.1 := by
      intro q hq
      rw [← hlp, ← hfst]
      exact List.mem_map_of_mem hq
    have hof : ∀ fd ∈ c.fields, P fd → ∃ o, (fd, o) ∈ os := by
      intro fd h1 h2
      have : fd ∈ os.map (·.1) := by rw [hfst, hlp]; exact ⟨h1, h2⟩
      obtain ⟨⟨fd', o⟩, hp, rfl⟩ := List.mem_map.1 this
      exact ⟨o, hp⟩
    have hstart : ∀ fd ∈ c.fields, Key.str fd.extName ∉ (startErrs ctx c raw []).keys := by
      intro fd hfd hk
      rw [mem_startErrs, mem_rogueKeys] at hk
      rcases hk with hk | hk
      · cases hk
      · exact hk.2.2 (extName_accepted hfd)
    have hget : ∀ u, Dict.get? (applyAll os ⟨ctx.trusted, startErrs ctx c raw []⟩).errs k = some u ↔
        (∃ q ∈ os, k = .str q.1.extName ∧ q.2.err = some u) ∨ (Rogue ctx c raw k ∧ u = .rogue) := by
      intro u
      by_cases hk : ∃ q ∈ os, k = .str q.1.extName
      · obtain ⟨q, hq, rfl⟩ := hk
        rw [applyAll_errs_get os _ hnd hq (hstart _ (hin q hq).1)]
        constructor
        · intro h; exact Or.inl ⟨q, hq, rfl, h⟩
        · rintro (⟨q', hq', h1, h2⟩ | ⟨h1, _⟩)
          · have : q' = q := by
              injection h1 with h1
              clear hos hfst hin hof hr
              induction os with
              | nil => cases hq
              | cons y ys ih =>
                simp only [List.map_cons, List.nodup_cons] at hnd
                rcases List.mem_cons.1 hq with rfl | a <;> rcases List.mem_cons.1 hq' with rfl | b
                · rfl
                · exact absurd (List.mem_map.2 ⟨q', b, h1.symm⟩) hnd.1
                · exact absurd (List.mem_map.2 ⟨q, a, h1⟩) hnd.1
                · exact ih hnd.2 a b
            rw [← this]; exact h2
          · exact absurd (extName_accepted (hin q hq).1) h1.2.2
      · rw [applyAll_errs_get_not_mem os _ (fun q hq _ h => hk ⟨q, hq, h⟩)]
        show Dict.get? (startErrs ctx c raw []) k = some u ↔ _
        rw [startErrs_get]
        constructor
        · intro h
          split at h
          · rename_i hro
            injection h with h
            exact Or.inr ⟨(mem_rogueKeys ctx c raw k).1 hro, h.symm⟩
          · cases h
        · rintro (⟨q, hq, h1, _⟩ | ⟨h1, h2⟩)
          · exact absurd ⟨q, hq, h1⟩ hk
          · rw [if_pos ((mem_rogueKeys ctx c raw k).2 h1), h2]
    have hrep : Rep (if (applyAll os ⟨ctx.trusted, startErrs ctx c raw []⟩).errs.isEmpty
        then (.ok (copySettable c ctx raw (applyAll os ⟨ctx.trusted, startErrs ctx c raw []⟩).data) : R Data)
        else .error (.data (applyAll os ⟨ctx.trusted, startErrs ctx c raw []⟩).errs
          (copySettable c ctx raw (applyAll os ⟨ctx.trusted, startErrs ctx c raw []⟩).data))) (k :: p) t ↔
        ∃ u, Dict.get? (applyAll os ⟨ctx.trusted, startErrs ctx c raw []⟩).errs k = some u ∧ At u p t := by
      split
      · rename_i he
        rw [List.isEmpty_iff] at he
        rw [he]
        simp only [Dict.get?_nil, reduceCtorEq, false_and, exists_false, iff_false]
        exact rep_ok
      · constructor
        · rintro ⟨e, h1, h2⟩
          injection h1 with h1; subst h1
          obtain ⟨k', q, u, h3, h4, h5⟩ := at_node.1 h2
          injection h3 with h3 h3'; subst h3 h3'
          exact ⟨u, h4, h5⟩
        · rintro ⟨u, h1, h2⟩
          exact ⟨_, rfl, .down h1 h2⟩
    rw [hrep]
    constructor
    · rintro ⟨u, h1, h2⟩
      rcases (hget u).1 h1 with ⟨q, hq, h3, h4⟩ | ⟨h3, h4⟩
      · left
        exact ⟨q.1, (hin q hq).1, (hin q hq).2, h3, (fieldRes_paths (outcomes_mem hos q hq) p t).1 ⟨u, h4, h2⟩⟩
      · right
        subst h4
        exact ⟨h3, at_rogue.1 h2⟩
    · rintro (⟨fd, h1, h2, h3, h4⟩ | ⟨h1, rfl, rfl⟩)
      · obtain ⟨o, ho⟩ := hof fd h1 h2
        obtain ⟨u, h5, h6⟩ := (fieldRes_paths (outcomes_mem hos _ ho) p t).2 h4
        exact ⟨u, (hget u).2 (Or.inl ⟨_, ho, h3, h5⟩), h6⟩
      · exact ⟨.rogue, (hget _).2 (Or.inr ⟨h1, rfl⟩), at_rogue.2 ⟨rfl, rfl⟩⟩

/-- The entries of the errors of the loop. -/
theorem importBody_entry {rec : Rec} {env : Env} {ctx : Ctx} {c : ClassDef} {P : FieldDef → Prop} (hc : c.WF) (hx : DistinctExt c)
    (hlp : ∀ fd, fd ∈ c.loopFields ctx ↔ fd ∈ c.fields ∧ P fd) {raw : Data} (hr : NoCrash (importBody rec env ctx c raw []))
    {fd : FieldDef} (hfd : fd ∈ c.fields) (hP : P fd) :
    Dict.get? (errorsOf (importBody rec env ctx c raw [])) (.str fd.extName) = none ↔
      ¬ Looked ctx raw fd ∨ ∃ w, rec (innerCtx env ctx fd) true fd.field (fillValue ctx fd (inputValue raw ctx.mapping fd)) = .ok w := by
  obtain ⟨k, hk⟩ : ∃ k, k = Key.str fd.extName := ⟨_, rfl⟩
  rw [← hk]
  rw [importBody_eq _ _ _ _ hc] at hr ⊢
  cases hos : outcomes (fieldRes rec env ctx raw) (c.loopFields ctx) with
  | error e =>
    exfalso
    have := hr e (by rw [hos])
    obtain ⟨fd, hfd, he⟩ := outcomes_error hos
    unfold fieldRes fieldOutcome at he
    simp only [] at he
    split at he
    · cases he
    · split at he
      · split at he <;> cases he
      · split at he
        · cases he
        · rename_i hcc; injection he with he; subst he; exact hcc this
  | ok os =>
    simp only []
    have hfst := outcomes_map_fst hos
    have hnd : (os.map (·.1.extName)).Nodup := by
      have h1 : ((c.loopFields ctx).map (·.extName)).Nodup := by
        unfold ClassDef.loopFields ClassDef.plain
        split
        · exact hx
        · exact List.Nodup.sublist (List.filter_sublist.map _) hx
      rw [← hfst] at h1
      simpa [List.map_map, Function.comp_def] using h1
    have hin : ∀ q ∈ os, q.1 ∈ c.fields ∧ P q.1 := by
      intro q hq
      rw [← hlp, ← hfst]
      exact List.mem_map_of_mem hq
    have hof : ∀ fd ∈ c.fields, P fd → ∃ o, (fd, o) ∈ os := by
      intro fd h1 h2
      have : fd ∈ os.map (·.1) := by rw [hfst, hlp]; exact ⟨h1, h2⟩
      obtain ⟨⟨fd', o⟩, hp, rfl⟩ := List.mem_map.1 this
      exact ⟨o, hp⟩
    have hstart : ∀ fd ∈ c.fields, Key.str fd.extName ∉ (startErrs ctx c raw []).keys := by
      intro fd hfd hk
      rw [mem_startErrs, mem_rogueKeys] at hk
      rcases hk with hk | hk
      · cases hk
      · exact hk.2.2 (extName_accepted hfd)
    have hget : ∀ u, Dict.get? (applyAll os ⟨ctx.trusted, startErrs ctx c raw []⟩).errs k = some u ↔
        (∃ q ∈ os, k = .str q.1.extName ∧ q.2.err = some u) ∨ (Rogue ctx c raw k ∧ u = .rogue) := by
      intro u
      by_cases hk : ∃ q ∈ os, k = .str q.1.extName
      · obtain ⟨q, hq, rfl⟩ := hk
        rw [applyAll_errs_get os _ hnd hq (hstart _ (hin q hq).1)]
        constructor
        · intro h; exact Or.inl ⟨q, hq, rfl, h⟩
        · rintro (⟨q', hq', h1, h2⟩ | ⟨h1, _⟩)
          · have : q' = q := by
              injection h1 with h1
              clear hos hfst hin hof hr
              induction os with
              | nil => cases hq
              | cons y ys ih =>
                simp only [List.map_cons, List.nodup_cons] at hnd
                rcases List.mem_cons.1 hq with rfl | a <;> rcases List.mem_cons.1 hq' with rfl | b
                · rfl
                · exact absurd (List.mem_map.2 ⟨q', b, h1.symm⟩) hnd.1
                · exact absurd (List.mem_map.2 ⟨q, a, h1⟩) hnd.1
                · exact ih hnd.2 a b
            rw [← this]; exact h2
          · exact absurd (extName_accepted (hin q hq).1) h1.2.2
      · rw [applyAll_errs_get_not_mem os _ (fun q hq _ h => hk ⟨q, hq, h⟩)]
        show Dict.get? (startErrs ctx c raw []) k = some u ↔ _
        rw [startErrs_get]
        constructor
        · intro h
          split at h
          · rename_i hro
            injection h with h
            exact Or.inr ⟨(mem_rogueKeys ctx c raw k).1 hro, h.symm⟩
          · cases h
        · rintro (⟨q, hq, h1, _⟩ | ⟨h1, h2⟩)
          · exact absurd ⟨q, hq, h1⟩ hk
          · rw [if_pos ((mem_rogueKeys ctx c raw k).2 h1), h2]
    have herr : errorsOf (if (applyAll os ⟨ctx.trusted, startErrs ctx c raw []⟩).errs.isEmpty
        then (.ok (copySettable c ctx raw (applyAll os ⟨ctx.trusted, startErrs ctx c raw []⟩).data) : R Data)
        else .error (.data (applyAll os ⟨ctx.trusted, startErrs ctx c raw []⟩).errs
          (copySettable c ctx raw (applyAll os ⟨ctx.trusted, startErrs ctx c raw []⟩).data))) = (applyAll os ⟨ctx.trusted, startErrs ctx c raw []⟩).errs := by
      split
      · rename_i he
        rw [List.isEmpty_iff] at he
        rw [he]; rfl
      · rfl
    rw [herr]
    obtain ⟨o, ho⟩ := hof fd hfd hP
    have hnr : ¬ Rogue ctx c raw k := by
      intro h; rw [hk] at h; exact h.2.2 (extName_accepted hfd)
    have hres := outcomes_mem hos _ ho
    have hall : Dict.get? (applyAll os ⟨ctx.trusted, startErrs ctx c raw []⟩).errs k = o.err := by
      rw [hk, applyAll_errs_get os _ hnd ho (hstart _ hfd)]
    rw [hall]
    unfold fieldRes fieldOutcome at hres
    simp only [] at hres
    have hlook : ((inputValue raw ctx.mapping fd).isUndef && ctx.trusted.has (.str fd.name)) = true ↔
        ¬ Looked ctx raw fd := by
      unfold Looked
      rw [Classical.not_not, Bool.and_eq_true, Val.isUndef_iff, Dict.has_iff]
    split at hres
    · rename_i hs
      injection hres with hres; subst hres
      exact ⟨fun _ => Or.inl (hlook.1 hs), fun _ => rfl⟩
    · rename_i hs
      have hl : Looked ctx raw fd := Classical.not_not.1 fun hh => hs (hlook.2 hh)
      split at hres
      · rename_i w hw
        have hw' : rec (innerCtx env ctx fd) true fd.field (fillValue ctx fd (inputValue raw ctx.mapping fd)) = .ok w := hw
        have hoe : o.err = none := by
          split at hres <;> (injection hres with hres; subst hres; rfl)
        exact ⟨fun _ => Or.inr ⟨w, hw'⟩, fun _ => hoe⟩
      · rename_i e he
        have he' : rec (innerCtx env ctx fd) true fd.field (fillValue ctx fd (inputValue raw ctx.mapping fd)) = .error e := he
        split at hres
        · injection hres with hres; subst hres
          refine ⟨fun h => (by cases h), ?_⟩
          rintro (h | ⟨w, h⟩)
          · exact absurd hl h
          · rw [he'] at h; cases h
        · cases hres

theorem importBody_nil {rec : Rec} {env : Env} {ctx : Ctx} {c : ClassDef} {raw : Data} {t : ErrTree} 
    (hr : NoCrash (importBody rec env ctx c raw [])) : ¬ Rep (importBody rec env ctx c raw []) [] t := by
  rintro ⟨e, he, hat⟩
  have hc := hr e he
  unfold importBody at he
  simp only [] at he
  split at he
  · rename_i e' he'
    injection he with he; subst he
    have hcc : ∀ fds a, importFields rec env ctx raw fds a = .error e' → e'.caught = false := by
      intro fds
      induction fds with
      | nil => intro a h; cases h
      | cons fd fds ih =>
        intro a h
        simp only [importFields] at h
        split at h
        · rename_i e2 he2
          injection h with h; subst h
          unfold fieldOutcome at he2
          simp only [] at he2
          split at he2
          · cases he2
          · split at he2
            · split at he2 <;> cases he2
            · split at he2
              · cases he2
              · rename_i hcc; injection he2 with he2; subst he2; simpa using hcc
        · exact ih _ h
    rw [hcc _ _ he'] at hc
    cases hc
  · split at he
    · cases he
    · injection he with he; subst he
      obtain ⟨k, q, u, h, _⟩ := at_node.1 hat
      cases h

theorem importBody_noCrash {rec : Rec} {env : Env} {ctx : Ctx} {c : ClassDef} {P : FieldDef → Prop} (hc : c.WF)
    (hlp : ∀ fd, fd ∈ c.loopFields ctx ↔ fd ∈ c.fields ∧ P fd) {raw : Data} (hr : NoCrash (importBody rec env ctx c raw []))
    {fd : FieldDef} (hfd : fd ∈ c.fields) (hs : P fd) (hl : Looked ctx raw fd) :
    NoCrash (rec (innerCtx env ctx fd) true fd.field (fillValue ctx fd (inputValue raw ctx.mapping fd))) := by
  intro e he
  cases hcc : e.caught with
  | true => rfl
  | false =>
    exfalso
    have hres : fieldRes rec env ctx raw fd = .error e := by
      unfold fieldRes fieldOutcome
      simp only []
      rw [if_neg]
      · unfold innerCtx at he
        rw [he]
        simp [hcc]
      · rw [Bool.and_eq_true, Val.isUndef_iff, Dict.has_iff]; exact hl
    rw [importBody_eq _ _ _ _ hc] at hr
    cases hos : outcomes (fieldRes rec env ctx raw) (c.loopFields ctx) with
    | ok os =>
      have hfst := outcomes_map_fst hos
      have : fd ∈ os.map (·.1) := by rw [hfst, hlp]; exact ⟨hfd, hs⟩
      obtain ⟨⟨fd', o⟩, hp, rfl⟩ := List.mem_map.1 this
      rw [outcomes_mem hos _ hp] at hres
      cases hres
    | error e' =>
      have h1 := hr e' (by rw [hos])
      obtain ⟨fd', _, he'⟩ := outcomes_error hos
      rw [fieldRes_error he'] at h1
      cases h1

/-- Raw data whose values are tidy. -/
theorem tidy_input {env : Env} {raw : Data} (h : ∀ kv ∈ raw, Tidy env kv.2) (ctx : Ctx) (m : Mapping) (fd : FieldDef)
    (hd : Tidy env fd.field.o.default) : Tidy env (fillValue ctx fd (inputValue raw m fd)) := by
  have hundef : Tidy env .undef := .other (by simp) (by simp) (by simp) (by simp)
  have hnone : Tidy env .none := .other (by simp) (by simp) (by simp) (by simp)
  have hraw : ∀ n, Tidy env (rawValue raw n) := by
    intro n
    unfold rawValue
    cases hg : Dict.get? raw (.str n) with
    | none => exact hundef
    | some v => exact h _ (Dict.mem_of_get? hg)
  have hal : ∀ n ks, Tidy env (aliasValue raw n ks) := by
    intro n ks
    induction ks with
    | nil => exact hundef
    | cons k ks ih =>
      unfold aliasValue
      split
      · cases hg : Dict.get? raw (.str k) with
        | none => exact ih
        | some v => exact h _ (Dict.mem_of_get? hg)
      · exact ih
  have hin : Tidy env (inputValue raw m fd) := by
    unfold inputValue
    simp only []
    split
    · exact hal _ _
    · exact hraw _
  unfold fillValue
  simp only []
  split
  · split
    · exact hnone
    · exact hd
  · split
    · exact hnone
    · exact hin

theorem importLoop_eq_body {rec : Rec} {env : Env} {ctx : Ctx} (hv : ctx.validate = false) {c : ClassDef} {mu : Mut} {raw : Data} :
    importLoop rec env ctx c mu raw = importBody rec env ctx c raw [] := by
  unfold importLoop; rw [hv]; rfl

theorem modelInto_rep {rec : Rec} {env : Env} {ctx : Ctx} (hv : ctx.validate = false) {c : ClassDef} {raw : Data} {bi : Bool} :
    (NoCrash (modelInto rec env ctx c raw bi) → NoCrash (importBody rec env ctx c raw [])) ∧
    ∀ p t, Rep (modelInto rec env ctx c raw bi) p t ↔ Rep (importBody rec env ctx c raw []) p t := by
  have key : ∃ f : Data → Val, modelInto rec env ctx c raw bi =
      match importBody rec env ctx c raw [] with | .error e => .error e | .ok d => .ok (f d) := by
    unfold modelInto
    split
    · refine ⟨fun d => .inst c.name d, ?_⟩
      unfold newInstance
      rw [hv]
      simp only [Bool.false_eq_true, if_false, importLoop_eq_body hv]
      cases importBody rec env ctx c raw [] <;> rfl
    · refine ⟨fun d => .dict d, ?_⟩
      rw [importLoop_eq_body hv]
      cases importBody rec env ctx c raw [] <;> rfl
  obtain ⟨f, hf⟩ := key
  rw [hf]
  cases importBody rec env ctx c raw [] with
  | error e =>
    exact ⟨fun h e' he' => by injection he' with he'; subst he'; exact h _ rfl, fun p t => by
      constructor
      · rintro ⟨e', h, hh⟩; injection h with h; subst h; exact ⟨_, rfl, hh⟩
      · rintro ⟨e', h, hh⟩; injection h with h; subst h; exact ⟨_, rfl, hh⟩⟩
  | ok d => exact ⟨fun _ e he => (by cases he), fun p t => ⟨fun h => absurd h rep_ok, fun h => absurd h rep_ok⟩⟩

theorem newInstance_rep {rec : Rec} {env : Env} {ctx : Ctx} (hv : ctx.validate = false) {c : ClassDef} {raw : Data} :
    (NoCrash (newInstance rec env ctx c raw) → NoCrash (importBody rec env ctx c raw [])) ∧
    ∀ p t, Rep (newInstance rec env ctx c raw) p t ↔ Rep (importBody rec env ctx c raw []) p t := by
  unfold newInstance
  rw [hv]
  simp only [Bool.false_eq_true, if_false, importLoop_eq_body hv]
  cases importBody rec env ctx c raw [] with
  | error e =>
    exact ⟨fun h e' he' => by injection he' with he'; subst he'; exact h _ rfl, fun p t => by
      constructor
      · rintro ⟨e', h, hh⟩; injection h with h; subst h; exact ⟨_, rfl, hh⟩
      · rintro ⟨e', h, hh⟩; injection h with h; subst h; exact ⟨_, rfl, hh⟩⟩
  | ok d => exact ⟨fun _ e he => (by cases he), fun p t => ⟨fun h => absurd h rep_ok, fun h => absurd h rep_ok⟩⟩

theorem conv_paths {env : Env} (henv : env.Proper) (n : Nat) : ∀ (ctx : Ctx) (named : Bool) (f : Field) (v : Val),
    ctx.conv = .imp → ctx.validate = false → f.Honest → Tidy env v →
    NoCrash (fieldConv env n ctx named f v) →
    ∀ p t, Rep (fieldConv env n ctx named f v) p t ↔ Problem env ctx named f v p t := by
  induction n with
  | zero =>
    intro ctx named f v _ _ _ _ hn
    have := hn .fuel rfl
    cases this
  | succ n ih =>
    intro ctx named f v hi hv hf ht hn p t
    simp only [fieldConv, fieldConvF] at hn ⊢
    -- missing values
    by_cases hemp : v.isEmpty = true
    · have hprob : Problem env ctx named f v p t ↔ requiredFails ctx named f v = true ∧ p = [] ∧ t = .leaf .conv ["required"] := by
        constructor
        · intro h
          cases h with
          | required h1 h2 h3 => 
            refine ⟨?_, rfl, rfl⟩
            rcases h3 with h3 | h3 <;> simp [requiredFails, h1, h2, h3]
          | scalar h1 _ => rw [hemp] at h1; cases h1
          | unusable h1 _ => rw [hemp] at h1; cases h1
          | item h1 _ _ =>
            rcases (Val.isEmpty_iff v).1 hemp with rfl | rfl
            · cases h1
            · cases h1
          | entry _ _ => cases hemp
          | field h1 _ _ _ _ => cases h1 <;> cases hemp
          | rogue h1 _ => cases h1 <;> cases hemp
        · rintro ⟨h1, rfl, rfl⟩
          simp only [requiredFails, Bool.and_eq_true, Bool.or_eq_true, Bool.not_eq_true'] at h1
          exact .required h1.1.1 h1.1.2 h1.2
      rw [hprob]
      split
      · rename_i hr
        constructor
        · rintro ⟨e, h1, h2⟩
          injection h1 with h1; subst h1
          exact ⟨hr, at_leaf.1 h2⟩
        · intro h; exact ⟨_, rfl, at_leaf.2 h.2⟩
      · rename_i hr
        exact ⟨fun h => absurd h rep_ok, fun h => absurd h.1 hr⟩
    · have hne : v.isEmpty = false := by simpa using hemp
      have hrf : requiredFails ctx named f v = false := by simp [requiredFails, hne]
      rw [hrf, hne, hi] at hn ⊢
      simp only [Bool.false_eq_true, if_false] at hn ⊢
      have hnr : ∀ {P : Prop}, f.o.required = true → v.isEmpty = true → P := by
        intro P _ h; rw [hne] at h; cases h
      -- nested models
      have hmod : ∀ ty o c raw (r : R Val), ((NoCrash r → NoCrash (importBody (fieldConv env n) env ctx c raw [])) ∧
            ∀ p t, Rep r p t ↔ Rep (importBody (fieldConv env n) env ctx c raw []) p t) → f = .mk ty o → Opens env ty v c raw → (∃ k, env.cls k = some c) →
          (∀ kv ∈ raw, Tidy env kv.2) →
          NoCrash r →
          (∀ c' raw', Opens env ty v c' raw' → c' = c ∧ raw' = raw) → (∀ l, ty ≠ .leaf l) →
          (∀ m, ¬ Unusable env ty v m) →
          (∀ i mn mx, ty ≠ .list i mn mx) → (∀ i co, ty ≠ .dict i co) →
          (Rep r p t ↔ Problem env ctx named f v p t) := by
        rintro ty o c raw r ⟨h1, h2⟩ rfl hop ⟨k, hcls⟩ htd hnc huniq hnl hnu hnli hndi
        have hnc := h1 hnc
        rw [h2]
        obtain ⟨hwf, hext, hflds⟩ := henv k c hcls
        have hsub : ∀ fd, (innerCtx env ctx fd).conv = .imp ∧ (innerCtx env ctx fd).validate = false := by
          intro fd; unfold innerCtx; split <;> exact ⟨hi, hv⟩
        have hih : ∀ fd ∈ c.fields, fd.fset = none → Looked ctx raw fd → ∀ q u,
            (Rep (fieldConv env n (innerCtx env ctx fd) true fd.field (fillValue ctx fd (inputValue raw ctx.mapping fd))) q u ↔
              Problem env (innerCtx env ctx fd) true fd.field (fillValue ctx fd (inputValue raw ctx.mapping fd)) q u) := by
          intro fd hfd hs hl q u
          exact ih _ true fd.field _ (hsub fd).1 (hsub fd).2 (hflds fd hfd).1
            (tidy_input htd ctx _ fd (hflds fd hfd).2) (importBody_noCrash hwf (fun _ => mem_plain_loop hv) hnc hfd hs hl) q u
        cases p with
        | nil =>
          constructor
          · intro h; exact absurd h (importBody_nil hnc)
          · intro h
            cases h with
            | required a b _ => exact hnr a b
            | scalar => exact absurd rfl (hnl _)
            | unusable _ hu => exact absurd hu (hnu _)
        | cons k p =>
          rw [importBody_paths hwf hext (fun _ => mem_plain_loop hv) hnc]
          constructor
          · rintro (⟨fd, a, b, rfl, c', d, e⟩ | ⟨a, rfl, rfl⟩)
            · exact .field hop a b c' ((hih fd a b c' p t).1 e)
            · exact .rogue hop a
          · intro h
            cases h with
            | item => exact absurd rfl (hnli _ _ _)
            | entry => exact absurd rfl (hndi _ _)
            | field ho a b c' e =>
              obtain ⟨rfl, rfl⟩ := huniq _ _ ho
              exact Or.inl ⟨_, a, b, rfl, c', importBody_noCrash hwf (fun _ => mem_plain_loop hv) hnc a b c', (hih _ a b c' p t).2 e⟩
            | rogue ho a =>
              obtain ⟨rfl, rfl⟩ := huniq _ _ ho
              exact Or.inr ⟨a, rfl, rfl⟩
      have hunus : ∀ {ty o m}, f = .mk ty o → (∀ l, ty ≠ .leaf l) →
          Unusable env ty v m → (∀ m', Unusable env ty v m' → m' = m) → (∀ c raw, ¬ Opens env ty v c raw) → 
          (∀ inner mn mx xs, ty = .list inner mn mx → coerceList env v ≠ some xs) → 
          (∀ inner co kvs, ty = .dict inner co → v ≠ .dict kvs) →
          (Rep (convErr m : R Val) p t ↔ Problem env ctx named f v p t) := by
        rintro ty o m rfl hnl hu huu hno hl hd
        constructor
        · rintro ⟨e, h1, h2⟩
          injection h1 with h1; subst h1
          obtain ⟨rfl, rfl⟩ := at_leaf.1 h2
          exact .unusable hne hu
        · intro h
          cases h with
          | required a b _ => exact hnr a b
          | scalar => exact absurd rfl (hnl _)
          | unusable _ hu' => obtain rfl := huu _ hu'; exact ⟨_, rfl, at_leaf.2 ⟨rfl, rfl⟩⟩
          | item a _ _ => exact absurd a (hl _ _ _ _ rfl)
          | entry _ _ => exact absurd rfl (hd _ _ _ rfl)
          | field a => exact absurd a (hno _ _)
          | rogue a => exact absurd a (hno _ _)
      obtain ⟨ty, o⟩ := f
      cases ty with
      | leaf l =>
        simp only [convertF, Field.ty_mk] at hn ⊢
        constructor
        · rintro ⟨e, h1, h2⟩
          obtain ⟨k, ms, rfl⟩ := (show ∀ app v e, l.toNative app v = .error e → e.caught = true → ∃ k ms, e = .field k ms from hf) _ _ _ h1 (hn _ h1)
          obtain ⟨rfl, rfl⟩ := at_leaf.1 h2
          exact .scalar hne h1
        · intro h
          cases h with
          | required a b _ => exact hnr a b
          | scalar _ h => exact ⟨_, h, at_leaf.2 ⟨rfl, rfl⟩⟩
          | unusable _ h => cases h
          | field h => cases h
          | rogue h => cases h
      | list inner mn mx =>
        simp only [convertF, Field.ty_mk] at hn ⊢
        cases hxs : coerceList env v with
        | none =>
          simp only [hxs] at hn ⊢
          exact hunus rfl (by simp) (.list hxs) (by intro m h; cases h; rfl) (by intro c raw h; cases h)
            (by intro _ _ _ _ _ h; rw [hxs] at h; cases h) (by intro _ _ _ h; cases h)
        | some xs =>
          simp only [hxs] at hn ⊢
          have hti : ∀ x ∈ xs, Tidy env x := by
            intro x hx
            have hkey : ∀ k : Key, Tidy env (match k with | .str s => Val.str s | .int i => .int i) := by
              intro k; cases k <;> exact .other (by simp) (by simp) (by simp) (by simp)
            cases ht with
            | list h => simp only [coerceList] at hxs; injection hxs with hxs; subst hxs; exact h x hx
            | tuple h => simp only [coerceList] at hxs; injection hxs with hxs; subst hxs; exact h x hx
            | dict => cases hxs
            | inst h =>
              simp only [coerceList] at hxs; injection hxs with hxs; subst hxs
              obtain ⟨b, _, rfl⟩ := List.mem_map.1 hx; exact hkey _
            | other h1 h2 h3 h4 =>
              cases v <;> simp [coerceList] at hxs h1 h2 h3 h4
              subst hxs
              obtain ⟨b, _, rfl⟩ := List.mem_map.1 hx
              exact .other (by simp) (by simp) (by simp) (by simp)
          unfold listConv at hn ⊢
          cases hl : listLoop (fieldConv env n ctx false inner) 0 xs with
          | error e =>
            rw [hl] at hn
            obtain ⟨_, _, _, hc⟩ := listLoop_error hl
            rw [hn e rfl] at hc; cases hc
          | ok ye =>
            obtain ⟨ys, es⟩ := ye
            rw [hl] at hn
            obtain ⟨_, h2, h3, h4, _⟩ := listLoop_ok hl
            simp only [Nat.zero_add] at h2 h3
            have hih : ∀ x ∈ xs, ∀ q u, (Rep (fieldConv env n ctx false inner x) q u ↔ Problem env ctx false inner x q u) :=
              fun x hx q u => ih ctx false inner x hi hv hf (hti x hx) (fun e he => h4 x hx e he) q u
            have hprob : Problem env ctx named (.mk (.list inner mn mx) o) v p t ↔
                ∃ k q u, p = k :: q ∧ Dict.get? es k = some u ∧ At u q t := by
              constructor
              · intro h
                cases h with
                | required a b _ => exact hnr a b
                | unusable _ hu => cases hu with | list h => rw [hxs] at h; cases h
                | @item _ _ _ _ _ _ _ xs' i x q _ a b c =>
                  rw [hxs] at a; injection a with a; subst a
                  have hmem := List.mem_of_getElem? b
                  obtain ⟨e, he, hat⟩ := (hih x hmem q t).2 c
                  exact ⟨_, _, _, rfl, h3 i x e b he, hat⟩
                | field h => cases h
                | rogue h => cases h
              · rintro ⟨k, q, u, rfl, hg, hat⟩
                have hk : k ∈ Dict.keys es := (Dict.get?_isSome _ _).1 (by rw [hg]; rfl)
                obtain ⟨j, x, e, a, rfl, c⟩ := (h2 k).1 hk
                rw [h3 j x e a c] at hg
                injection hg with hg; subst hg
                exact .item hxs a ((hih x (List.mem_of_getElem? a) q t).1 ⟨e, c, hat⟩)
            rw [hprob]
            simp only []
            split
            · rename_i he
              rw [List.isEmpty_iff] at he
              subst he
              exact ⟨fun h => absurd h rep_ok, by rintro ⟨_, _, _, _, h, _⟩; cases h⟩
            · rw [← at_node]
              constructor
              · rintro ⟨e, h, h'⟩; injection h with h; subst h; exact h'
              · intro h; exact ⟨_, rfl, h⟩
      | dict inner co =>
        simp only [convertF, Field.ty_mk] at hn ⊢
        have hnd : v.isDict = false → (Rep (convErr "dict" : R Val) p t ↔ Problem env ctx named (.mk (.dict inner co) o) v p t) := by
          intro hd
          exact hunus rfl (by simp) (.dict hd) (by intro m h; cases h; rfl) (by intro c raw h; cases h)
            (by intro _ _ _ _ h; cases h) (by rintro _ _ _ _ rfl; cases hd)
        cases v with
        | dict kvs =>
          simp only [] at hn ⊢
          obtain ⟨hnodup, htk⟩ : (kvs.map (·.1)).Nodup ∧ ∀ kv ∈ kvs, Tidy env kv.2 := by
            cases ht with
            | dict a b => exact ⟨a, b⟩
            | other _ _ h _ => exact absurd rfl (h _)
          unfold dictConv at hn ⊢
          cases hl : dictLoop (fieldConv env n ctx false inner) co kvs [] [] with
          | error e =>
            rw [hl] at hn
            obtain ⟨_, _, _, hc⟩ := dictLoop_error hl
            rw [hn e rfl] at hc; cases hc
          | ok de =>
            obtain ⟨d, es⟩ := de
            rw [hl] at hn
            obtain ⟨_, h2, h3, h4, _, _⟩ := dictLoop_spec hl
            have hentry : ∀ k x e, (k, x) ∈ kvs → (convEntry (fieldConv env n ctx false inner) co k x = .error e ↔
                fieldConv env n ctx false inner x = .error e) := by
              intro k x e hkx
              have hcc := h3 (k, x) hkx
              unfold convEntry at hcc ⊢
              cases hfx : fieldConv env n ctx false inner x with
              | error e' => simp
              | ok y =>
                simp only [hfx] at hcc ⊢
                cases hck : co k with
                | ok k' => simp
                | error e' =>
                  have h1 := hcc e' (by simp [hck])
                  have h2 := hf.2 k e' hck
                  rw [h1] at h2; cases h2
            have hih : ∀ k x, (k, x) ∈ kvs → ∀ q u, (Rep (fieldConv env n ctx false inner x) q u ↔ Problem env ctx false inner x q u) :=
              fun k x hx q u => ih ctx false inner x hi hv hf.1 (htk _ hx)
                (fun e he => h3 (k, x) hx e ((hentry k x e hx).2 he)) q u
            have hprob : Problem env ctx named (.mk (.dict inner co) o) (.dict kvs) p t ↔
                ∃ k q u, p = k :: q ∧ Dict.get? es k = some u ∧ At u q t := by
              constructor
              · intro h
                cases h with
                | required a b _ => exact hnr a b
                | unusable _ hu => cases hu with | dict h => cases h
                | @entry _ _ _ _ _ _ k x q _ a c =>
                  obtain ⟨e, he, hat⟩ := (hih k x a q t).2 c
                  exact ⟨_, _, _, rfl, h4 hnodup k x e a ((hentry k x e a).2 he), hat⟩
                | field h => cases h
                | rogue h => cases h
              · rintro ⟨k, q, u, rfl, hg, hat⟩
                have hk : k ∈ Dict.keys es := (Dict.get?_isSome _ _).1 (by rw [hg]; rfl)
                rcases (h2 k).1 hk with hk | ⟨x, e, a, c⟩
                · cases hk
                · rw [h4 hnodup k x e a c] at hg
                  injection hg with hg; subst hg
                  exact .entry a ((hih k x a q t).1 ⟨e, (hentry k x e a).1 c, hat⟩)
            rw [hprob]
            simp only []
            split
            · rename_i he
              rw [List.isEmpty_iff] at he
              subst he
              exact ⟨fun h => absurd h rep_ok, by rintro ⟨_, _, _, _, h, _⟩; cases h⟩
            · rw [← at_node]
              constructor
              · rintro ⟨e, h, h'⟩; injection h with h; subst h; exact h'
              · intro h; exact ⟨_, rfl, h⟩
        | _ => exact hnd rfl
      | model cls =>
        simp only [convertF, Field.ty_mk] at hn ⊢
        have hno : v.isDict = false → (∀ k d, v ≠ .inst k d) →
            (Rep (convErr "model" : R Val) p t ↔ Problem env ctx named (.mk (.model cls) o) v p t) := by
          intro hd hins
          exact hunus rfl (by simp) (.model hd hins) (by intro m h; cases h <;> rfl)
            (by intro c raw h; cases h with
                | dict => cases hd
                | inst => exact hins _ _ rfl)
            (by intro _ _ _ _ h; cases h) (by intro _ _ _ h; cases h)
        cases v with
        | dict d =>
          simp only [modelConv] at hn ⊢
          cases hcls : env.cls cls with
          | none => rw [hcls] at hn; have := hn _ rfl; cases this
          | some c =>
            simp only [hcls] at hn ⊢
            refine hmod _ _ c d _ (modelInto_rep hv) rfl (.dict hcls) ⟨_, hcls⟩ ?_ hn ?_ (by simp) ?_ (by simp) (by simp)
            · cases ht with
              | dict _ b => exact b
              | other _ _ h _ => exact absurd rfl (h _)
            · intro c' raw' h
              cases h with
              | dict h => rw [hcls] at h; injection h with h; exact ⟨h.symm, rfl⟩
            · intro m h; cases h with | model h => cases h
        | inst k d =>
          simp only [modelConv] at hn ⊢
          split at hn
          · rename_i hsub
            rw [if_pos hsub]
            cases hcls : env.cls k with
            | none => rw [hcls] at hn; have := hn _ rfl; cases this
            | some c =>
              simp only [hcls] at hn ⊢
              refine hmod _ _ c (c.view d) _ (modelInto_rep hv) rfl (.inst hsub hcls) ⟨_, hcls⟩ ?_ hn ?_ (by simp) ?_ (by simp) (by simp)
              · cases ht with
                | inst h => unfold Env.view at h; rw [hcls] at h; exact h
                | other _ _ _ h => exact absurd rfl (h _ _)
              · intro c' raw' h
                cases h with
                | inst _ h => rw [hcls] at h; injection h with h; exact ⟨h.symm, by rw [h]⟩
              · intro m h
                cases h with
                | model _ h => exact absurd rfl (h _ _)
                | inst h => rw [hsub] at h; cases h
          · rename_i hsub
            rw [if_neg hsub]
            exact hunus rfl (by simp) (.inst (by simpa using hsub)) (by intro m h; cases h <;> rfl)
              (by intro c raw h; cases h with
                  | inst h _ => exact hsub h)
              (by intro _ _ _ _ h; cases h) (by intro _ _ _ h; cases h)
        | _ => exact hno rfl (by simp)
      | poly pp =>
        simp only [convertF, Field.ty_mk] at hn ⊢
        unfold polyConv at hn ⊢
        simp only [hv, Bool.not_false, Bool.true_and] at hn ⊢
        split at hn
        · rename_i hall
          rw [if_pos hall]
          refine ⟨fun h => absurd h rep_ok, fun h => ?_⟩
          exfalso
          have hnd : ∀ d, v ≠ .dict d := by rintro d rfl; cases hall
          cases h with
          | required a b _ => exact hnr a b
          | unusable _ hu => cases hu with | poly h _ => rw [hall] at h; cases h
          | field h => cases h; exact hnd _ rfl
          | rogue h => cases h; exact hnd _ rfl
        · rename_i hall
          rw [if_neg hall]
          split at hn
          · rename_i hd
            rw [if_pos hd]
            have hd : v.isDict = false := by simpa using hd
            exact hunus rfl (by simp) (.poly (by simpa using hall) hd) (by intro m h; cases h; rfl)
              (by intro c raw h; cases h; cases hd)
              (by intro _ _ _ _ h; cases h) (by intro _ _ _ h; cases h)
          · rename_i hd
            rw [if_neg hd]
            cases v with
            | dict d =>
              cases hfm : pp.findModel env (.dict d) with
              | error e =>
                rw [hfm] at hn
                have hcc := hn e rfl
                unfold PolySpec.findModel at hfm
                split at hfm
                · split at hfm
                  · cases hfm
                  · injection hfm with hfm; subst hfm; cases hcc
                · simp only [] at hfm
                  split at hfm
                  · cases hfm
                  · cases hfm
                  · injection hfm with hfm; subst hfm; cases hcc
              | ok k =>
                simp only [hfm] at hn ⊢
                cases hcls : env.cls k with
                | none => rw [hcls] at hn; have := hn _ rfl; cases this
                | some c =>
                  simp only [hcls] at hn ⊢
                  refine hmod _ _ c d _ (newInstance_rep hv) rfl (.poly hfm hcls) ⟨_, hcls⟩ ?_ hn ?_ (by simp) ?_ (by simp) (by simp)
                  · cases ht with
                    | dict _ b => exact b
                    | other _ _ h _ => exact absurd rfl (h _)
                  · intro c' raw' h
                    cases h with
                    | poly h1 h2 =>
                      rw [hfm] at h1; injection h1 with h1; subst h1
                      rw [hcls] at h2; injection h2 with h2; exact ⟨h2.symm, rfl⟩
                  · intro m h; cases h with | poly _ h => cases h
            | _ => exact absurd rfl hd

/-! ## The theorems -/

/-- **C15** (fields).  The error raised for a field of any type, at any nesting depth, has an entry
`t` under path `p` exactly when at location `p` of the input a value fails with `t` by its own. -/
theorem C15_field_error_tree {env : Env} (henv : env.Proper) (n : Nat) {ctx : Ctx} (hi : ctx.conv = .imp)
    (hv : ctx.validate = false) {f : Field} (hf : f.Honest) {v : Val} (ht : Tidy env v)
    (hn : ∀ e, fieldConv env n ctx true f v = .error e → e.caught = true) (p : List Key) (t : ErrTree) :
    (∃ e, fieldConv env n ctx true f v = .error e ∧ At e.tree p t) ↔ Problem env ctx true f v p t :=
  conv_paths henv n ctx true f v hi hv hf ht hn p t

/-- **C15** (models).  The errors of a plain import which does not crash: path `k :: p` of the error
tree holds `t` exactly when the input location reached by `k :: p` fails with `t` by its own. -/
theorem C15_error_tree_mirrors_data {env : Env} (henv : env.Proper) (n : Nat) {ctx : Ctx} (hi : ctx.conv = .imp)
    (hv : ctx.validate = false) {c : ClassDef} (hc : c.Proper env) (mu : Mut) {raw : Data}
    (ht : ∀ kv ∈ raw, Tidy env kv.2) (hn : ¬ Crashed (runImport env n ctx c mu raw))
    (k : Key) (p : List Key) (t : ErrTree) :
    (∃ u, Dict.get? (errorsOf (runImport env n ctx c mu raw)) k = some u ∧ At u p t) ↔
      ModelProblem env ctx c raw k p t := by
  unfold runImport at hn ⊢
  rw [importLoop_eq_body hv] at hn ⊢
  have hdata : ∀ e, importBody (fieldConv env n) env ctx c raw [] = .error e → ∃ es q, e = .data es q := by
    intro e he
    refine Classical.byContradiction fun h => hn ⟨e, he, fun es q hq => h ⟨es, q, hq⟩⟩
  have hnc : NoCrash (importBody (fieldConv env n) env ctx c raw []) := by
    intro e he
    obtain ⟨es, q, rfl⟩ := hdata e he
    rfl
  have hrep : (∃ u, Dict.get? (errorsOf (importBody (fieldConv env n) env ctx c raw [])) k = some u ∧ At u p t) ↔
      Rep (importBody (fieldConv env n) env ctx c raw []) (k :: p) t := by
    cases hb : importBody (fieldConv env n) env ctx c raw [] with
    | ok d =>
      refine ⟨?_, fun h => absurd h rep_ok⟩
      rintro ⟨u, h, _⟩; cases h
    | error e =>
      obtain ⟨es, q, rfl⟩ := hdata e hb
      constructor
      · rintro ⟨u, h, h'⟩; exact ⟨_, rfl, .down h h'⟩
      · rintro ⟨e, h, h'⟩
        injection h with h; subst h
        obtain ⟨k', q', u, h3, h4, h5⟩ := at_node.1 h'
        injection h3 with h3 h3'; subst h3 h3'
        exact ⟨u, h4, h5⟩
  obtain ⟨hwf, hext, hflds⟩ := hc
  rw [hrep, importBody_paths hwf hext (fun _ => mem_plain_loop hv) hnc]
  have hsub : ∀ fd, (innerCtx env ctx fd).conv = .imp ∧ (innerCtx env ctx fd).validate = false := by
    intro fd; unfold innerCtx; split <;> exact ⟨hi, hv⟩
  have hih : ∀ fd ∈ c.fields, fd.fset = none → Looked ctx raw fd → ∀ q u,
      (Rep (fieldConv env n (innerCtx env ctx fd) true fd.field (fillValue ctx fd (inputValue raw ctx.mapping fd))) q u ↔
        Problem env (innerCtx env ctx fd) true fd.field (fillValue ctx fd (inputValue raw ctx.mapping fd)) q u) := by
    intro fd hfd hs hl q u
    exact conv_paths henv n _ true fd.field _ (hsub fd).1 (hsub fd).2 (hflds fd hfd).1
      (tidy_input ht ctx _ fd (hflds fd hfd).2) (importBody_noCrash hwf (fun _ => mem_plain_loop hv) hnc hfd hs hl) q u
  unfold ModelProblem
  refine or_congr ⟨?_, ?_⟩ Iff.rfl
  · rintro ⟨fd, a, b, c', d, e, f⟩; exact ⟨fd, a, b, c', d, (hih fd a b d p t).1 f⟩
  · rintro ⟨fd, a, b, c', d, f⟩
    exact ⟨fd, a, b, c', d, importBody_noCrash hwf (fun _ => mem_plain_loop hv) hnc a b d, (hih fd a b d p t).2 f⟩

/-! ## The hypotheses are met -/

theorem Samples.tidy_scalar (env : Env) (v : Val) (h : v = .undef ∨ v = .none ∨ (∃ i, v = .int i) ∨ ∃ s, v = .str s) :
    Tidy env v := by
  rcases h with rfl | rfl | ⟨_, rfl⟩ | ⟨_, rfl⟩ <;> exact .other (by simp) (by simp) (by simp) (by simp)

theorem Samples.int_honest (o : FieldOpts) : (Field.mk (.leaf Samples.intLeaf) o).Honest :=
  fun _ _ _ h _ => ⟨_, _, Samples.intLeaf_err h⟩
theorem Samples.str_honest (o : FieldOpts) : (Field.mk (.leaf Samples.strLeaf) o).Honest :=
  fun _ _ _ h _ => ⟨_, _, Samples.strLeaf_err h⟩

theorem Samples.item_proper : Samples.item.Proper Samples.env :=
  ⟨Samples.item_wf, by unfold DistinctExt; decide,
    Samples.item_fields ⟨Samples.int_honest _, Samples.tidy_scalar _ _ (Or.inl rfl)⟩
      ⟨Samples.str_honest _, Samples.tidy_scalar _ _ (Or.inl rfl)⟩⟩
theorem Samples.order_proper : Samples.order.Proper Samples.env :=
  ⟨Samples.order_wf, by unfold DistinctExt; decide,
    Samples.order_fields ⟨Samples.int_honest _, Samples.tidy_scalar _ _ (Or.inl rfl)⟩
      ⟨trivial, Samples.tidy_scalar _ _ (Or.inl rfl)⟩
      ⟨⟨Samples.int_honest _, fun k e h => by cases h⟩, Samples.tidy_scalar _ _ (Or.inl rfl)⟩
      ⟨Samples.str_honest _, Samples.tidy_scalar _ _ (Or.inr (Or.inr (Or.inr ⟨_, rfl⟩)))⟩
      ⟨trivial, Samples.tidy_scalar _ _ (Or.inl rfl)⟩⟩

theorem Samples.bad_tidy : ∀ kv ∈ Samples.bad, Tidy Samples.env kv.2 := by
  have hs : ∀ i, Tidy Samples.env (.int i) := fun i => Samples.tidy_scalar _ _ (Or.inr (Or.inr (Or.inl ⟨_, rfl⟩)))
  have ht : ∀ i, Tidy Samples.env (.str i) := fun i => Samples.tidy_scalar _ _ (Or.inr (Or.inr (Or.inr ⟨_, rfl⟩)))
  have hn : Tidy Samples.env .none := Samples.tidy_scalar _ _ (Or.inr (Or.inl rfl))
  intro kv h
  simp only [Samples.bad, List.mem_cons, List.not_mem_nil, or_false] at h
  rcases h with rfl | rfl | rfl | rfl
  · refine .list fun x hx => ?_
    simp only [List.mem_cons, List.not_mem_nil, or_false] at hx
    rcases hx with rfl | rfl | rfl
    · exact .dict (by decide) (by simpa using hs _)
    · exact .dict (by decide) (by simpa using ht _)
    · exact hs _
  · exact .dict (by decide) (by simp [hs, ht, hn])
  · exact .dict (by decide) (by simpa using ht _)
  · exact hs _

/-- The bad sample reports the failing `qty` of the second item under `items.1.qty`. -/
example : ModelProblem Samples.env Samples.ictx Samples.order Samples.bad (.str "items") [.int 1, .str "qty"]
    (.leaf .conv ["int"]) := by
  refine (C15_error_tree_mirrors_data (Samples.env_classes Samples.item_proper Samples.order_proper) 5 rfl rfl
    Samples.order_proper (.inst []) Samples.bad_tidy (Samples.not_crashed rfl) _ _ _).1 ?_
  exact ⟨_, rfl, .down rfl (.down rfl (.here (by intro es h; cases h)))⟩
example := C15_field_error_tree (Samples.env_classes Samples.item_proper Samples.order_proper) 5 (ctx := Samples.ictx) rfl rfl
  (f := .mk (.model "Item") {}) trivial (v := .int 3) (Samples.tidy_scalar _ _ (Or.inr (Or.inr (Or.inl ⟨_, rfl⟩))))
  (by intro e h; cases h; rfl)

end Verif
