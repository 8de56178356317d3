import Verif.Samples
import Verif.Core.Sim

/-! # C22: termination of import and validation -/
namespace Verif

/-! ## Specification vocabulary -/

/-- The computation did not exceed the recursion limit. -/
def Ends {α : Type} (r : R α) : Prop := r ≠ .error .fuel

/-- The value has nesting depth at most `n`.  Scalars have depth 0; a model instance is as deep
as the mapping it presents. -/
inductive Depth (env : Env) : Nat → Val → Prop
  | undef {n} : Depth env n .undef
  | none {n} : Depth env n .none
  | bool {n b} : Depth env n (.bool b)
  | int {n i} : Depth env n (.int i)
  | flt {n f} : Depth env n (.flt f)
  | str {n s} : Depth env n (.str s)
  | uuid {n u} : Depth env n (.uuid u)
  | date {n d} : Depth env n (.date d)
  | datetime {n d} : Depth env n (.datetime d)
  | timedelta {n d} : Depth env n (.timedelta d)
  | decimal {n d} : Depth env n (.decimal d)
  | enum {n c m v} : Depth env n (.enum c m v)
  | obj {n o} : Depth env n (.obj o)
  | bytes {n bs} : Depth env (n + 1) (.bytes bs)
  | list {n xs} : (∀ x ∈ xs, Depth env n x) → Depth env (n + 1) (.list xs)
  | tuple {n xs} : (∀ x ∈ xs, Depth env n x) → Depth env (n + 1) (.tuple xs)
  | dict {n kvs} : (∀ kv ∈ kvs, Depth env n kv.2) → Depth env (n + 1) (.dict kvs)
  | inst {n c d} : (∀ kv ∈ env.view c d, Depth env n kv.2) → Depth env (n + 1) (.inst c d)

mutual
/-- A type without models inside, nested at most `n` deep. -/
def FType.ModelFree : Nat → FType → Prop
  | _, .leaf _ => True
  | 0, _ => False
  | n + 1, .list inner _ _ => inner.ModelFree n
  | n + 1, .dict inner _ => inner.ModelFree n
  | _, .model _ => False
  | _, .poly _ => False
/-- A field without models inside, nested at most `n` deep. -/
def Field.ModelFree : Nat → Field → Prop
  | n, .mk t _ => t.ModelFree n
end

/-- User-supplied code does not itself exceed the recursion limit. -/
def Leaf.Tame (l : Leaf) : Prop :=
  (∀ app v, Ends (l.toNative app v)) ∧ (∀ g ∈ l.validators, ∀ app v, Ends (g app v)) ∧
    ∀ g, l.override = some g → ∀ b app v, Ends (g b app v)

mutual
/-- User-supplied code in the type does not exceed the recursion limit. -/
def FType.Tame : FType → Prop
  | .leaf l => l.Tame
  | .list inner _ _ => inner.Tame
  | .dict inner co => inner.Tame ∧ ∀ k, Ends (co k)
  | .model _ => True
  | .poly _ => True
/-- User-supplied code in the field does not exceed the recursion limit. -/
def Field.Tame : Field → Prop
  | .mk t o => t.Tame ∧ ∀ g ∈ o.validators, ∀ app v, Ends (g app v)
end

/-- A class for which termination is claimed: no setters, tame user code, and a default only where
it cannot start a new chain of nested models: it is `None`, or the field's type contains no model
(and is at most `T` deep). -/
def ClassDef.Finite (T : Nat) (c : ClassDef) : Prop :=
  (∀ fd ∈ c.fields, fd.fset = none ∧ fd.field.Tame ∧
    (fd.field.o.default.isEmpty = true ∨ fd.field.ModelFree T)) ∧
  ∀ n f, Dict.get? c.validators n = some f → ∀ a b v app, Ends (f a b v app)

/-- All classes of the table are finite. -/
def Env.Finite (T : Nat) (env : Env) : Prop := ∀ k c, env.cls k = some c → c.Finite T

/-! ## Lemmas -/

theorem Depth.mono {env : Env} {n m : Nat} {v : Val} (h : Depth env n v) (hnm : n ≤ m) : Depth env m v := by
  induction h generalizing m with
  | bytes => obtain ⟨m, rfl⟩ := Nat.exists_eq_add_of_lt (Nat.lt_of_succ_le hnm); exact .bytes
  | list _ ih =>
    obtain ⟨m, rfl⟩ : ∃ k, m = k + 1 := ⟨m - 1, by omega⟩
    exact .list fun x hx => ih x hx (by omega)
  | tuple _ ih =>
    obtain ⟨m, rfl⟩ : ∃ k, m = k + 1 := ⟨m - 1, by omega⟩
    exact .tuple fun x hx => ih x hx (by omega)
  | dict _ ih =>
    obtain ⟨m, rfl⟩ : ∃ k, m = k + 1 := ⟨m - 1, by omega⟩
    exact .dict fun x hx => ih x hx (by omega)
  | inst _ ih =>
    obtain ⟨m, rfl⟩ : ∃ k, m = k + 1 := ⟨m - 1, by omega⟩
    exact .inst fun x hx => ih x hx (by omega)
  | undef => exact .undef
  | none => exact .none
  | bool => exact .bool
  | int => exact .int
  | flt => exact .flt
  | str => exact .str
  | uuid => exact .uuid
  | date => exact .date
  | datetime => exact .datetime
  | timedelta => exact .timedelta
  | decimal => exact .decimal
  | enum => exact .enum
  | obj => exact .obj

theorem ends_ok {α : Type} (a : α) : Ends (.ok a : R α) := by intro h; cases h

theorem convErr_ends {α : Type} (m : Msg) : Ends (convErr m : R α) := by intro h; cases h

theorem rawValue_mem (raw : Data) (n : String) : rawValue raw n = .undef ∨ ∃ kv ∈ raw, rawValue raw n = kv.2 := by
  unfold rawValue
  cases h : Dict.get? raw (.str n) with
  | none => exact Or.inl rfl
  | some v => exact Or.inr ⟨_, Dict.mem_of_get? h, rfl⟩

theorem aliasValue_mem (raw : Data) (n : String) (ks : List String) :
    aliasValue raw n ks = .undef ∨ ∃ kv ∈ raw, aliasValue raw n ks = kv.2 := by
  induction ks with
  | nil => exact Or.inl rfl
  | cons k ks ih =>
    unfold aliasValue
    split
    · cases h : Dict.get? raw (.str k) with
      | none => exact ih
      | some v => exact Or.inr ⟨_, Dict.mem_of_get? h, rfl⟩
    · exact ih

theorem inputValue_mem (raw : Data) (m : Mapping) (fd : FieldDef) :
    inputValue raw m fd = .undef ∨ ∃ kv ∈ raw, inputValue raw m fd = kv.2 := by
  unfold inputValue
  simp only []
  split
  · exact aliasValue_mem _ _ _
  · exact rawValue_mem _ _

section loops
variable {rec : Rec} {env : Env} {ctx : Ctx}

theorem fieldOutcome_ends {fd : FieldDef} {raw : Data} {inD : Bool}
    (h : Ends (rec (if fd.field.ty.isCompound then subCtx env ctx fd.name else ctx) true fd.field
      (fillValue ctx fd (inputValue raw ctx.mapping fd)))) :
    Ends (fieldOutcome rec env ctx raw inD fd) := by
  unfold fieldOutcome
  simp only []
  split
  · exact ends_ok _
  · split
    · split <;> exact ends_ok _
    · rename_i e he
      split
      · exact ends_ok _
      · rw [he] at h; intro hh; injection hh with hh; exact h (by rw [hh])

theorem importFields_ends {fds : List FieldDef} {raw : Data}
    (h : ∀ fd ∈ fds, Ends (rec (if fd.field.ty.isCompound then subCtx env ctx fd.name else ctx) true fd.field
      (fillValue ctx fd (inputValue raw ctx.mapping fd)))) (a : Acc) :
    Ends (importFields rec env ctx raw fds a) := by
  induction fds generalizing a with
  | nil => exact ends_ok _
  | cons fd fds ih =>
    simp only [importFields]
    have h1 := fieldOutcome_ends (inD := a.data.has (.str fd.name)) (h fd (by simp))
    split
    · rename_i e he; rw [he] at h1; intro hh; injection hh with hh; exact h1 (by rw [hh])
    · exact ih (fun x hx => h x (by simp [hx])) _

theorem importBody_ends {c : ClassDef} {raw : Data} {es : Errs}
    (h : ∀ fd ∈ c.fields, Ends (rec (if fd.field.ty.isCompound then subCtx env ctx fd.name else ctx) true fd.field
      (fillValue ctx fd (inputValue raw ctx.mapping fd)))) :
    Ends (importBody rec env ctx c raw es) := by
  unfold importBody
  simp only []
  have := importFields_ends (fds := c.loopFields ctx) (fun fd hfd => h fd (Sim.mem_loop hfd))
    ⟨ctx.trusted, (rogueKeys ctx c raw).foldl (fun es k => Dict.set es k .rogue) es⟩
  split
  · rename_i e he; rw [he] at this; intro hh; injection hh with hh; exact this (by rw [hh])
  · split
    · exact ends_ok _
    · intro hh; cases hh

theorem noSetters {c : ClassDef} (h : ∀ fd ∈ c.fields, fd.fset = none) : c.settable = [] := by
  unfold ClassDef.settable
  rw [List.filter_eq_nil_iff]
  intro fd hfd
  simp [h fd hfd]

theorem view_empty {c : ClassDef} : c.view [] = [] := by
  unfold ClassDef.view
  rw [List.filterMap_eq_nil_iff]
  intro fd _
  simp

theorem modelValidators_ends {c : ClassDef}
    (h : ∀ n f, Dict.get? c.validators n = some f → ∀ a b v app, Ends (f a b v app))
    {mv : Data} {app : Val} (fds : List FieldDef) (d : Data) : Ends (modelValidators c mv app fds d) := by
  induction fds generalizing d with
  | nil => exact ends_ok _
  | cons fd fds ih =>
    simp only [modelValidators]
    split
    · exact ih _
    · rename_i f hf
      have hf : Dict.get? c.validators fd.name = some f := by
        split at hf
        · cases hf
        · exact hf
      have he := h _ _ hf mv d (rawValue d fd.name) app
      split
      · exact ih _
      · rename_i e hee
        rw [hee] at he
        split
        · intro hh; injection hh with hh; exact he (by rw [hh])
        · split
          · rename_i e' he'; have := ih d; rw [he'] at this
            intro hh; injection hh with hh; exact this (by rw [hh])
          · exact ends_ok _

theorem popAll_ends (ns : List String) (d : Data) : Ends (popAll ns d) := by
  induction ns generalizing d with
  | nil => exact ends_ok _
  | cons n ns ih =>
    unfold popAll
    split
    · exact ih _
    · intro hh; cases hh

theorem validateModel_ends {c : ClassDef}
    (h : ∀ n f, Dict.get? c.validators n = some f → ∀ a b v app, Ends (f a b v app))
    {mv : Data} {app : Val} (d : Data) : Ends (validateModel c mv app d) := by
  unfold validateModel
  have h1 := modelValidators_ends h (mv := mv) (app := app) c.fields d
  split
  · rename_i e he; rw [he] at h1; intro hh; injection hh with hh; exact h1 (by rw [hh])
  · rename_i es inv d' _
    have h2 := popAll_ends inv d'
    split
    · rename_i e he; rw [he] at h2; intro hh; injection hh with hh; exact h2 (by rw [hh])
    · exact ends_ok _

/-- All raw values the field loop may see. -/
def LoopEnds (rec : Rec) (env : Env) (ctx : Ctx) (c : ClassDef) (raw : Data) : Prop :=
  ∀ fd ∈ c.fields, Ends (rec (if fd.field.ty.isCompound then subCtx env ctx fd.name else ctx) true fd.field
      (fillValue ctx fd (inputValue raw ctx.mapping fd)))

/-- The raw data after `_mutate`, without setters. -/
def mutRaw (c : ClassDef) (raw : Data) : Mut → Data
  | .inst d => raw.update (c.view d)
  | .same _ => raw

theorem runMutate_noSetters {c : ClassDef} (h : ∀ fd ∈ c.fields, fd.fset = none) (mu : Mut) (raw : Data) :
    (∃ m, runMutate rec ctx c mu raw = .ok m ∧ m.raw = mutRaw c raw mu) ∨
      runMutate rec ctx c mu raw = .error (.other "AttributeError") := by
  cases mu with
  | inst d => left; exact ⟨_, by simp [runMutate, noSetters h, runSetters]; rfl, rfl⟩
  | same b =>
    cases b
    · left; exact ⟨_, by simp [runMutate, noSetters h, runSetters]; rfl, rfl⟩
    · right; simp [runMutate, noSetters h, runSetters]

theorem importLoop_ends {T : Nat} {c : ClassDef} (hc : c.Finite T) {mu : Mut} {raw : Data}
    (h : LoopEnds rec env ctx c (if ctx.validate then mutRaw c raw mu else raw)) :
    Ends (importLoop rec env ctx c mu raw) := by
  unfold importLoop
  split
  · rename_i hv
    rw [if_pos hv] at h
    rcases runMutate_noSetters (rec := rec) (ctx := ctx) (fun fd hfd => (hc.1 fd hfd).1) mu raw with ⟨m, hm, hr⟩ | hm
    · rw [hm]; simp only []; rw [hr]; exact importBody_ends h
    · rw [hm]; intro hh; cases hh
  · rename_i hv
    rw [if_neg hv] at h
    exact importBody_ends h

theorem validateFn_ends {T : Nat} {c : ClassDef} (hc : c.Finite T) {mu : Mut} {raw : Data}
    (h : LoopEnds rec env ctx c (mutRaw c raw mu)) :
    Ends (validateFn rec env ctx c mu raw) := by
  unfold validateFn
  rcases runMutate_noSetters (rec := rec) (ctx := ctx) (fun fd hfd => (hc.1 fd hfd).1) mu raw with ⟨m, hm, hr⟩ | hm
  · rw [hm]
    have h : LoopEnds rec env ctx c m.raw := by rw [hr]; exact h
    dsimp only
    have hb := importBody_ends (es := m.errs) h
    split
    · rename_i e he
      intro hh; injection hh with hh; subst hh
      split at he
      · cases he
      · cases he
      · rename_i e' he'; injection he with he; subst he; exact hb he'
    · rename_i es d _
      have h2 := validateModel_ends hc.2 (mv := m.data) (app := ctx.app) d
      split
      · rename_i e he; rw [he] at h2; intro hh; injection hh with hh; exact h2 (by rw [hh])
      · split
        · exact ends_ok _
        · intro hh; cases hh
  · rw [hm]; intro hh; cases hh

theorem newInstance_ends {T : Nat} {c : ClassDef} (hc : c.Finite T) {raw : Data}
    (h : LoopEnds rec env ctx c raw) : Ends (newInstance rec env ctx c raw) := by
  unfold newInstance
  have hm : mutRaw c raw (.inst []) = raw := by simp [mutRaw, view_empty]
  have : Ends (if ctx.validate then validateFn rec env ctx c (.inst []) raw
         else importLoop rec env ctx c (.inst []) raw) := by
    split
    · exact validateFn_ends hc (by rw [hm]; exact h)
    · exact importLoop_ends hc (by rw [hm]; simpa using h)
  split
  · rename_i e he; rw [he] at this; intro hh; injection hh with hh; exact this (by rw [hh])
  · exact ends_ok _

theorem modelInto_ends {T : Nat} {c : ClassDef} (hc : c.Finite T) {raw : Data} {bi : Bool}
    (h : LoopEnds rec env ctx c raw) : Ends (modelInto rec env ctx c raw bi) := by
  unfold modelInto
  split
  · exact newInstance_ends hc h
  · have := importLoop_ends (mu := .same bi) hc (by simpa [mutRaw] using h)
    split
    · rename_i e he; rw [he] at this; intro hh; injection hh with hh; exact this (by rw [hh])
    · exact ends_ok _

theorem listConv_ends {f : Val → R Val} {xs : List Val} (h : ∀ x ∈ xs, Ends (f x)) : Ends (listConv f xs) := by
  have : ∀ i, Ends (listLoop f i xs) := by
    induction xs with
    | nil => intro i; exact ends_ok _
    | cons x xs ih =>
      intro i
      have ih := ih (fun y hy => h y (by simp [hy])) (i + 1)
      have hx := h x (by simp)
      simp only [listLoop]
      split
      · split
        · rename_i e he; rw [he] at ih; intro hh; injection hh with hh; exact ih (by rw [hh])
        · exact ends_ok _
      · rename_i e he
        rw [he] at hx
        split
        · split
          · rename_i e' he'; rw [he'] at ih; intro hh; injection hh with hh; exact ih (by rw [hh])
          · exact ends_ok _
        · intro hh; injection hh with hh; exact hx (by rw [hh])
  unfold listConv
  have := this 0
  split
  · rename_i e he; rw [he] at this; intro hh; injection hh with hh; exact this (by rw [hh])
  · split
    · exact ends_ok _
    · intro hh; cases hh

theorem dictConv_ends {f : Val → R Val} {co : Key → R Key} {kvs : List (Key × Val)}
    (h : ∀ kv ∈ kvs, Ends (f kv.2)) (hco : ∀ k, Ends (co k)) : Ends (dictConv f co kvs) := by
  have : ∀ d es, Ends (dictLoop f co kvs d es) := by
    induction kvs with
    | nil => intro d es; exact ends_ok _
    | cons x xs ih =>
      obtain ⟨k, x⟩ := x
      intro d es
      have ih := ih (fun y hy => h y (by simp [hy]))
      have hx := h (k, x) (by simp)
      have hk := hco k
      simp only [dictLoop]
      cases hf : f x with
      | error e =>
        simp only []
        rw [show f (k, x).2 = f x from rfl, hf] at hx
        split
        · exact ih _ _
        · intro hh; injection hh with hh; exact hx (by rw [hh])
      | ok y =>
        simp only []
        cases hc : co k with
        | ok k' => exact ih _ _
        | error e =>
          simp only []
          rw [hc] at hk
          split
          · exact ih _ _
          · intro hh; injection hh with hh; exact hk (by rw [hh])
  unfold dictConv
  have := this [] []
  split
  · rename_i e he; rw [he] at this; intro hh; injection hh with hh; exact this (by rw [hh])
  · split
    · exact ends_ok _
    · intro hh; cases hh

theorem runValidators_ends {app v : Val} {fs : List Validator} (h : ∀ g ∈ fs, Ends (g app v)) :
    Ends (runValidators app v fs) := by
  induction fs with
  | nil => exact ends_ok _
  | cons g fs ih =>
    have ih := ih (fun x hx => h x (by simp [hx]))
    have hg := h g (by simp)
    simp only [runValidators]
    split
    · exact ih
    · split
      · exact ends_ok _
      · exact ends_ok _
      · rename_i e he; rw [he] at ih; intro hh; injection hh with hh; exact ih (by rw [hh])
    · exact ends_ok _
    · rename_i e _ _ he; rw [he] at hg; intro hh; injection hh with hh; exact hg (by rw [hh])

theorem finishValidation_ends {app v : Val} {fs : List Validator} (h : ∀ g ∈ fs, Ends (g app v)) :
    Ends (finishValidation app v fs) := by
  unfold finishValidation
  have := runValidators_ends h
  split
  · rename_i e he; rw [he] at this; intro hh; injection hh with hh; exact this (by rw [hh])
  · exact ends_ok _
  · intro hh; cases hh

theorem allValidators_ends {f : Field} (hf : f.Tame) (app v : Val) : ∀ g ∈ f.allValidators, Ends (g app v) := by
  obtain ⟨t, o⟩ := f
  intro g hg
  unfold Field.allValidators at hg
  simp only [List.mem_cons, List.mem_append] at hg
  rcases hg with rfl | hg | hg
  · unfold checkChoices
    split
    · exact ends_ok _
    · split
      · exact ends_ok _
      · intro hh; cases hh
  · cases t with
    | leaf l => exact hf.1.2.1 g hg app v
    | list inner mn mx =>
      simp only [Field.ty_mk, List.mem_singleton] at hg
      subst hg
      unfold checkLength
      split
      · intro hh; cases hh
      · split
        · intro hh; cases hh
        · exact ends_ok _
    | _ => simp at hg
  · exact hf.2 g hg app v

theorem validateF_ends {f : Field} (hf : f.Tame) {v : Val} (h : Ends (convertF rec env ctx f v)) :
    Ends (validateF rec env ctx f v) := by
  unfold validateF
  split
  · rename_i g hg
    obtain ⟨t, o⟩ := f
    cases t with
    | leaf l => exact hf.1.2.2 g hg _ _ _
    | _ => cases hg
  · split
    · split
      · rename_i e he; rw [he] at h; intro hh; injection hh with hh; exact h (by rw [hh])
      · exact finishValidation_ends (allValidators_ends hf _ _)
    · split
      · split
        · rename_i e he; rw [he] at h; intro hh; injection hh with hh; exact h (by rw [hh])
        · exact finishValidation_ends (allValidators_ends hf _ _)
      · exact finishValidation_ends (allValidators_ends hf _ _)

theorem fieldConvF_ends {f : Field} (hf : f.Tame) {named : Bool} {v : Val}
    (h : v.isEmpty = false → Ends (convertF rec env ctx f v)) : Ends (fieldConvF rec env ctx named f v) := by
  unfold fieldConvF
  split
  · exact convErr_ends _
  · split
    · exact ends_ok _
    · rename_i hv
      have h := h (by simpa using hv)
      split
      · exact h
      · exact validateF_ends hf h

end loops

/-- Fields without models inside need only as much fuel as the type is deep. -/
theorem fieldConv_modelFree (env : Env) (n : Nat) : ∀ (f : Field), f.Tame → f.ModelFree n → ∀ m, n < m →
    ∀ ctx named v, Ends (fieldConv env m ctx named f v) := by
  induction n with
  | zero =>
    intro f ht hf m hm ctx named v
    obtain ⟨m, rfl⟩ : ∃ k, m = k + 1 := ⟨m - 1, by omega⟩
    refine fieldConvF_ends ht fun _ => ?_
    obtain ⟨t, o⟩ := f
    cases t with
    | leaf l => exact ht.1.1 _ _
    | _ => simp [Field.ModelFree, FType.ModelFree] at hf
  | succ n ih =>
    intro f ht hf m hm ctx named v
    obtain ⟨m, rfl⟩ : ∃ k, m = k + 1 := ⟨m - 1, by omega⟩
    refine fieldConvF_ends ht fun _ => ?_
    obtain ⟨t, o⟩ := f
    cases t with
    | leaf l => exact ht.1.1 _ _
    | list inner mn mx =>
      simp only [convertF, Field.ty_mk]
      split
      · exact convErr_ends _
      · exact listConv_ends fun x _ => ih inner ht.1 hf m (by omega) _ _ _
    | dict inner co =>
      simp only [convertF, Field.ty_mk]
      split
      · exact dictConv_ends (fun x _ => ih inner ht.1.1 hf m (by omega) _ _ _) ht.1.2
      · exact convErr_ends _
    | model c => simp [Field.ModelFree, FType.ModelFree] at hf
    | poly p => simp [Field.ModelFree, FType.ModelFree] at hf

theorem fieldConv_empty_ends (env : Env) (n : Nat) (ctx : Ctx) (named : Bool) (f : Field) (hf : f.Tame) (v : Val)
    (hv : v.isEmpty = true) (hn : 0 < n) : Ends (fieldConv env n ctx named f v) := by
  obtain ⟨m, rfl⟩ : ∃ k, n = k + 1 := ⟨n - 1, by omega⟩
  exact fieldConvF_ends hf fun h => by rw [hv] at h; cases h

/-- The loop of a finite class ends if the raw values are converted within the fuel. -/
theorem loopEnds_of {T : Nat} {env : Env} {m : Nat} {ctx : Ctx} {c : ClassDef} (hc : c.Finite T) (hm : T < m)
    {raw : Data} (h : ∀ kv ∈ raw, ∀ ctx named (f : Field), f.Tame → Ends (fieldConv env m ctx named f kv.2)) :
    LoopEnds (fieldConv env m) env ctx c raw := by
  intro fd hfd
  obtain ⟨_, ht, hd⟩ := hc.1 fd hfd
  have hundef : ∀ ctx, Ends (fieldConv env m ctx true fd.field .undef) := fun ctx =>
    fieldConv_empty_ends env m ctx true _ ht _ rfl (by omega)
  have hnone : ∀ ctx, Ends (fieldConv env m ctx true fd.field .none) := fun ctx =>
    fieldConv_empty_ends env m ctx true _ ht _ rfl (by omega)
  have hdef : ∀ ctx, Ends (fieldConv env m ctx true fd.field fd.field.o.default) := by
    intro ctx
    rcases hd with hd | hd
    · exact fieldConv_empty_ends env m ctx true _ ht _ hd (by omega)
    · exact fieldConv_modelFree env T _ ht hd m hm _ _ _
  generalize (if fd.field.ty.isCompound then subCtx env ctx fd.name else ctx) = fctx
  have hin : Ends (fieldConv env m fctx true fd.field (inputValue raw ctx.mapping fd)) := by
    rcases inputValue_mem raw ctx.mapping fd with h' | ⟨kv, hkv, h'⟩
    · rw [h']; exact hundef _
    · rw [h']; exact h kv hkv _ _ _ ht
  unfold fillValue
  simp only []
  split
  · split
    · exact hnone _
    · exact hdef _
  · split
    · exact hnone _
    · exact hin

theorem findModel_ends (p : PolySpec) (env : Env) (v : Val) : Ends (p.findModel env v) := by
  intro he
  unfold PolySpec.findModel at he
  split at he
  · split at he <;> cases he
  · simp only [] at he
    split at he <;> cases he

theorem fieldConv_ends {T : Nat} (env : Env) (henv : env.Finite T) (d : Nat) : ∀ v, Depth env d v →
    ∀ m, T + d + 1 < m → ∀ ctx named (f : Field), f.Tame → Ends (fieldConv env m ctx named f v) := by
  induction d with
  | zero =>
    intro v hv m hm ctx named f hf
    obtain ⟨m, rfl⟩ : ∃ k, m = k + 1 := ⟨m - 1, by omega⟩
    refine fieldConvF_ends hf fun _ => ?_
    obtain ⟨t, o⟩ := f
    cases t with
    | leaf l => exact hf.1.1 _ _
    | list inner mn mx =>
      simp only [convertF, Field.ty_mk]
      cases hv <;> exact convErr_ends _
    | dict inner co =>
      simp only [convertF, Field.ty_mk]
      cases hv <;> exact convErr_ends _
    | model c =>
      simp only [convertF, Field.ty_mk]
      cases hv <;> exact convErr_ends _
    | poly p =>
      simp only [convertF, Field.ty_mk]
      unfold polyConv
      split
      · exact ends_ok _
      · split
        · exact convErr_ends _
        · split
          · rename_i e he
            intro hh; injection hh with hh; subst hh
            exact findModel_ends _ _ _ he
          · split
            · intro hh; cases hh
            · rename_i c hc
              have : Ends (newInstance (fieldConv env m) env ctx c []) :=
                newInstance_ends (henv _ c hc) (loopEnds_of (henv _ c hc) (by omega) (fun kv hkv => by cases hkv))
              cases hv <;> simp only [] <;> split <;> first | (intro hh; cases hh) | exact this
  | succ d ih =>
    intro v hv m hm ctx named f hf
    obtain ⟨m, rfl⟩ : ∃ k, m = k + 1 := ⟨m - 1, by omega⟩
    have ih := fun v hv => ih v hv m (by omega)
    have hkey : ∀ k : Key, Depth env d (match k with | .str s => Val.str s | .int i => .int i) := by
      intro k; cases k; exact .str; exact .int
    have hitems : ∀ xs, coerceList env v = some xs → ∀ x ∈ xs, Depth env d x := by
      intro xs hxs x hx
      cases hv with
      | list h => simp only [coerceList] at hxs; injection hxs with hxs; subst hxs; exact h x hx
      | tuple h => simp only [coerceList] at hxs; injection hxs with hxs; subst hxs; exact h x hx
      | bytes =>
        simp only [coerceList] at hxs; injection hxs with hxs; subst hxs
        obtain ⟨b, _, rfl⟩ := List.mem_map.1 hx; exact .int
      | inst h =>
        simp only [coerceList] at hxs; injection hxs with hxs; subst hxs
        obtain ⟨b, _, rfl⟩ := List.mem_map.1 hx; exact hkey _
      | _ => cases hxs
    refine fieldConvF_ends hf fun _ => ?_
    obtain ⟨t, o⟩ := f
    cases t with
    | leaf l => exact hf.1.1 _ _
    | list inner mn mx =>
      simp only [convertF, Field.ty_mk]
      split
      · exact convErr_ends _
      · rename_i xs hxs
        exact listConv_ends fun x hx => ih x (hitems xs hxs x hx) _ _ _ hf.1
    | dict inner co =>
      simp only [convertF, Field.ty_mk]
      split
      · cases hv with
        | dict h => exact dictConv_ends (fun x hx => ih _ (h x hx) _ _ _ hf.1.1) hf.1.2
      · exact convErr_ends _
    | model cls =>
      simp only [convertF, Field.ty_mk]
      cases hv with
      | dict h =>
        simp only [modelConv]
        split
        · rename_i c hc
          exact modelInto_ends (henv _ c hc) (loopEnds_of (henv _ c hc) (by omega)
            (fun kv hkv ctx named f hf => ih _ (h kv hkv) _ _ _ hf))
        · intro hh; cases hh
      | @inst _ k dd h =>
        simp only [modelConv]
        split
        · split
          · rename_i c hc
            have hview : env.view k dd = c.view dd := by unfold Env.view; rw [hc]
            rw [hview] at h
            exact modelInto_ends (henv _ c hc) (loopEnds_of (henv _ c hc) (by omega)
              (fun kv hkv ctx named f hf => ih _ (h kv hkv) _ _ _ hf))
          · intro hh; cases hh
        · exact convErr_ends _
      | _ => exact convErr_ends _
    | poly p =>
      simp only [convertF, Field.ty_mk]
      unfold polyConv
      split
      · exact ends_ok _
      · split
        · exact convErr_ends _
        · split
          · rename_i e he
            intro hh; injection hh with hh; subst hh
            exact findModel_ends _ _ _ he
          · split
            · intro hh; cases hh
            · rename_i c hc
              have : Ends (newInstance (fieldConv env m) env ctx c []) :=
                newInstance_ends (henv _ c hc) (loopEnds_of (henv _ c hc) (by omega) (fun kv hkv => by cases hkv))
              cases hv with
              | dict h =>
                exact newInstance_ends (henv _ c hc) (loopEnds_of (henv _ c hc) (by omega)
                  (fun kv hkv ctx named f hf => ih _ (h kv hkv) _ _ _ hf))
              | inst h =>
                exact newInstance_ends (henv _ c hc) (loopEnds_of (henv _ c hc) (by omega)
                  (fun kv hkv ctx named f hf => ih _ (h kv hkv) _ _ _ hf))
              | _ => simp only []; split <;> first | (intro hh; cases hh) | exact this

theorem fieldConv_succ (env : Env) (n : Nat) : ∀ ctx named f v,
    Le true (fieldConv env n ctx named f v) (fieldConv env (n + 1) ctx named f v) := by
  induction n with
  | zero => intro ctx named f v; exact Or.inl ⟨rfl, rfl⟩
  | succ n ih =>
    intro ctx named f v
    have := Sim.ident.fieldConvF (b := true) (rec := fieldConv env n) (rec' := fieldConv env (n + 1)) (e := env)
      (f := f) (f' := f) rfl rfl rfl (fun k c _ ctx f _ v => ih ctx true f.field v)
      (fun ctx f v => ih ctx false f v) ctx named v rfl
    rw [Sim.ident_env] at this
    exact this

theorem fieldConv_le (env : Env) {n m : Nat} (h : n ≤ m) (ctx : Ctx) (named : Bool) (f : Field) (v : Val) :
    Le true (fieldConv env n ctx named f v) (fieldConv env m ctx named f v) := by
  obtain ⟨k, rfl⟩ := Nat.exists_eq_add_of_le h
  clear h
  induction k with
  | zero => exact Le.refl _
  | succ k ih =>
    rcases ih with h | h
    · exact Or.inl h
    · have := fieldConv_succ env (n + k) ctx named f v
      rw [h] at this
      exact this

/-! ## Theorems -/

/-- **C22** (more stack does not change the outcome). An import or validation that ends within
recursion limit `n` has the same outcome with any larger limit. -/
theorem C22_outcome_independent_of_stack (env : Env) (n m : Nat) (h : n ≤ m) (ctx : Ctx) (c : ClassDef) (mu : Mut)
    (raw : Data) :
    (Ends (runImport env n ctx c mu raw) → runImport env m ctx c mu raw = runImport env n ctx c mu raw) ∧
    (Ends (runValidate env n ctx c mu raw) → runValidate env m ctx c mu raw = runValidate env n ctx c mu raw) := by
  have hag : Sim.ident.Agree true (fieldConv env n) (fieldConv env m) c.fields :=
    fun ctx f _ v => fieldConv_le env h ctx true f.field v
  constructor
  · intro he
    have := Sim.ident.importLoop (e := env) hag ctx mu raw
    rw [Sim.ident_env, Sim.ident_cls] at this
    rcases this with h' | h'
    · exact absurd h'.2 he
    · exact h'
  · intro he
    have := Sim.ident.validateFn (e := env) hag ctx mu raw
    rw [Sim.ident_env, Sim.ident_cls] at this
    rcases this with h' | h'
    · exact absurd h'.2 he
    · exact h'

/-- **C22** (termination). Importing or validating an input whose values have depth at most `d` ends
within recursion depth `T + d + 2`, for every table of classes, however recursive, in which fields
whose type contains models have no default (other than `None`). -/
theorem C22_import_terminates (T : Nat) (env : Env) (henv : env.Finite T) (ctx : Ctx) (c : ClassDef) (hc : c.Finite T)
    (mu : Mut) (raw : Data) (d : Nat) (hraw : ∀ kv ∈ raw, Depth env d kv.2)
    (hmu : ∀ data, mu = .inst data → ∀ kv ∈ c.view data, Depth env d kv.2) (n : Nat) (hn : T + d + 2 ≤ n) :
    Ends (runImport env n ctx c mu raw) ∧ Ends (runValidate env n ctx c mu raw) := by
  have hmem : ∀ (e : Data) (raw : Data), (∀ kv ∈ raw, Depth env d kv.2) → (∀ kv ∈ e, Depth env d kv.2) →
      ∀ kv ∈ raw.update e, Depth env d kv.2 := by
    intro e
    induction e with
    | nil => intro raw h _; exact h
    | cons x e ih =>
      intro raw h he
      refine ih _ ?_ (fun kv hkv => he kv (by simp [hkv]))
      have hx := he x (by simp)
      clear ih he
      induction raw with
      | nil => intro kv hkv; simp [Dict.set] at hkv; subst hkv; exact hx
      | cons y raw ih2 =>
        intro kv hkv
        obtain ⟨ky, vy⟩ := y
        simp only [Dict.set] at hkv
        split at hkv
        · rcases List.mem_cons.1 hkv with rfl | hkv
          · exact hx
          · exact h kv (by simp [hkv])
        · rcases List.mem_cons.1 hkv with rfl | hkv
          · exact h _ (by simp)
          · exact ih2 (fun kv hkv => h kv (by simp [hkv])) kv hkv
  have hmut : ∀ kv ∈ mutRaw c raw mu, Depth env d kv.2 := by
    cases mu with
    | inst data => exact hmem _ _ hraw (hmu data rfl)
    | same b => exact hraw
  have hloop : ∀ raw, (∀ kv ∈ raw, Depth env d kv.2) → LoopEnds (fieldConv env n) env ctx c raw :=
    fun raw h => loopEnds_of hc (by omega) fun kv hkv ctx named f hf =>
      fieldConv_ends env henv d _ (h kv hkv) n (by omega) ctx named f hf
  refine ⟨importLoop_ends hc ?_, validateFn_ends hc (hloop _ hmut)⟩
  split
  · exact hloop _ hmut
  · exact hloop _ hraw

theorem view_mem {c : ClassDef} (h : ∀ fd ∈ c.fields, fd.fget = none) {d : Data} {kv : Key × Val} (hkv : kv ∈ c.view d) :
    kv ∈ d := by
  unfold ClassDef.view at hkv
  obtain ⟨fd, hfd, hkv⟩ := List.mem_filterMap.1 hkv
  rw [h fd hfd] at hkv
  split at hkv
  · cases hkv
  · split at hkv
    · cases hkv
    · rename_i hd
      injection hkv with hkv
      rw [← hkv]
      exact Dict.mem_of_get? hd

/-- Every value whatsoever has a finite depth (with computed properties left aside), so the bound of
`C22_import_terminates` always exists. -/
theorem C22_depth_exists (env : Env) (hg : ∀ k c, env.cls k = some c → ∀ fd ∈ c.fields, fd.fget = none) (v : Val) :
    ∃ n, Depth env n v := by
  apply Val.rec (motive_1 := fun v => ∃ n, Depth env n v)
    (motive_2 := fun xs => ∃ n, ∀ x ∈ xs, Depth env n x)
    (motive_3 := fun kvs => ∃ n, ∀ kv ∈ kvs, Depth env n kv.2)
    (motive_4 := fun kv => ∃ n, Depth env n kv.2)
  case undef => exact ⟨0, .undef⟩
  case none => exact ⟨0, .none⟩
  case bool => intro _; exact ⟨0, .bool⟩
  case int => intro _; exact ⟨0, .int⟩
  case flt => intro _; exact ⟨0, .flt⟩
  case str => intro _; exact ⟨0, .str⟩
  case bytes => intro _; exact ⟨1, .bytes⟩
  case list => rintro xs ⟨n, h⟩; exact ⟨_, .list h⟩
  case tuple => rintro xs ⟨n, h⟩; exact ⟨_, .tuple h⟩
  case dict => rintro xs ⟨n, h⟩; exact ⟨_, .dict h⟩
  case inst =>
    rintro c d ⟨n, h⟩
    refine ⟨_, .inst (n := n) fun kv hkv => ?_⟩
    unfold Env.view at hkv
    split at hkv
    · rename_i c' hc'
      exact h kv (view_mem (hg _ c' hc') hkv)
    · exact h kv hkv
  case uuid => intro _; exact ⟨0, .uuid⟩
  case date => intro _; exact ⟨0, .date⟩
  case datetime => intro _; exact ⟨0, .datetime⟩
  case timedelta => intro _; exact ⟨0, .timedelta⟩
  case decimal => intro _; exact ⟨0, .decimal⟩
  case enum => intro _ _ _ _; exact ⟨0, .enum⟩
  case obj => intro _; exact ⟨0, .obj⟩
  case nil => exact ⟨0, by simp⟩
  case cons =>
    rintro x xs ⟨n, h⟩ ⟨m, hm⟩
    refine ⟨n + m, fun y hy => ?_⟩
    rcases List.mem_cons.1 hy with rfl | hy
    · exact h.mono (by omega)
    · exact (hm y hy).mono (by omega)
  case nil => exact ⟨0, by simp⟩
  case cons =>
    rintro x xs ⟨n, h⟩ ⟨m, hm⟩
    refine ⟨n + m, fun y hy => ?_⟩
    rcases List.mem_cons.1 hy with rfl | hy
    · exact h.mono (by omega)
    · exact (hm y hy).mono (by omega)
  case mk => intro k v h; exact h

/-- A model with a field of its own type whose default is `{}`. -/
def loopClass : ClassDef :=
  { name := "A", fields := [{ name := "a", field := .mk (.model "A") { default := .dict [] } }] }
/-- The class table of `loopClass`. -/
def loopEnv : Env := { cls := fun k => if k = "A" then some loopClass else none, isSub := (· == ·), subs := fun _ => [] }

/-- **C22** (the excluded case). A self-referencing model whose default is a dict never terminates:
whatever the recursion limit, importing `{}` exceeds it. -/
theorem C22_compound_default_diverges (n : Nat) (ctx : Ctx) (hd : ctx.defaults = true)
    (ht : ctx.trusted = []) (hv : ctx.validate = false) (hi : ctx.conv = .imp) :
    runImport loopEnv n ctx loopClass (.inst []) [] = .error .fuel := by
  have body : ∀ (rec : Rec) (ctx : Ctx), ctx.defaults = true → ctx.trusted = [] → ctx.validate = false →
      rec (subCtx loopEnv ctx "a") true (.mk (.model "A") { default := .dict [] }) (.dict []) = .error .fuel →
      importBody rec loopEnv ctx loopClass [] [] = .error .fuel := by
    intro rec ctx hd ht hv hr
    have hin : ∀ m fd, inputValue [] m fd = .undef := by
      intro m fd
      rcases inputValue_mem [] m fd with h | ⟨_, h, _⟩
      · exact h
      · cases h
    simp [importBody, ClassDef.loopFields, hv, ClassDef.plain, loopClass, importFields, ht, fieldOutcome,
      hin, Dict.has, fillValue, hd, Val.isUndef, hr, Exc.caught, FType.isCompound]
  have key : ∀ n (ctx : Ctx), ctx.defaults = true → ctx.trusted = [] → ctx.validate = false → ctx.conv = .imp →
      fieldConv loopEnv n ctx true (.mk (.model "A") { default := .dict [] }) (.dict []) = .error .fuel := by
    intro n
    induction n with
    | zero => intros; rfl
    | succ n ih =>
      intro ctx hd ht hv hi
      have hb := body (fieldConv loopEnv n) ctx hd ht hv (ih _ hd (by simp [subCtx, ht]) hv hi)
      simp only [fieldConv, fieldConvF]
      rw [hi]
      have hcls : loopEnv.cls "A" = some loopClass := rfl
      simp only [requiredFails, Field.o_mk, Bool.false_and, Bool.false_eq_true, if_false, Val.isEmpty, convertF, Field.ty_mk, modelConv, hcls,
        modelInto]
      split
      · simp only [newInstance, hv, importLoop, Bool.false_eq_true, if_false, hb]
      · simp only [hv, importLoop, Bool.false_eq_true, if_false, hb]
  unfold runImport importLoop
  rw [hv]
  exact body _ _ hd ht hv (key n _ hd (by simp [subCtx, ht]) hv hi)

/-! ## The hypotheses are met -/

theorem Samples.int_tame : Samples.intLeaf.Tame := by
  refine ⟨fun app v h => ?_, ?_, by intro g h; cases h⟩
  · have := Samples.intLeaf_err h; cases this
  · intro g hg app v
    simp only [Samples.intLeaf, List.mem_cons, List.not_mem_nil, or_false] at hg
    subst hg
    intro h
    simp only [] at h
    split at h
    · split at h <;> cases h
    · cases h
theorem Samples.str_tame : Samples.strLeaf.Tame := by
  refine ⟨fun app v h => ?_, (by intro g h; cases h), (by intro g h; cases h)⟩
  have := Samples.strLeaf_err h; cases this

theorem Samples.item_finite : Samples.item.Finite 1 :=
  ⟨Samples.item_fields ⟨rfl, ⟨Samples.int_tame, by intro g h; cases h⟩, Or.inl rfl⟩
    ⟨rfl, ⟨Samples.str_tame, by intro g h; cases h⟩, Or.inl rfl⟩, by intro n f h; cases h⟩
/-- The self-referencing class is covered. -/
theorem Samples.order_finite : Samples.order.Finite 1 :=
  ⟨Samples.order_fields ⟨rfl, ⟨Samples.int_tame, by intro g h; cases h⟩, Or.inl rfl⟩
    ⟨rfl, ⟨⟨trivial, by intro g h; cases h⟩, by intro g h; cases h⟩, Or.inl rfl⟩
    ⟨rfl, ⟨⟨⟨Samples.int_tame, by intro g h; cases h⟩, by intro k h; cases h⟩, by intro g h; cases h⟩, Or.inl rfl⟩
    ⟨rfl, ⟨Samples.str_tame, by intro g h; cases h⟩, Or.inr trivial⟩
    ⟨rfl, ⟨trivial, by intro g h; cases h⟩, Or.inl rfl⟩, by intro n f h; cases h⟩

example := C22_import_terminates 1 Samples.env (Samples.env_classes Samples.item_finite Samples.order_finite) Samples.ictx
  Samples.order Samples.order_finite (.inst []) [(.str "parent", .dict [(.str "id", .int 1)])] 1
  (by intro kv h; simp only [List.mem_cons, List.not_mem_nil, or_false] at h; subst h
      exact .dict (by intro kv h; simp only [List.mem_cons, List.not_mem_nil, or_false] at h; subst h; exact .int))
  (by intro d h kv hkv; cases h; simp [ClassDef.view, Samples.order, Dict.get?] at hkv) 4 (by omega)
example := (C22_outcome_independent_of_stack Samples.env 5 100 (by omega) Samples.ictx Samples.order (.inst []) Samples.good).1
  (by rw [Samples.import_good]; intro h; cases h)
example := C22_depth_exists Samples.env
  (Samples.env_classes (Samples.item_fields rfl rfl) (Samples.order_fields rfl rfl rfl rfl rfl)) (.dict Samples.good)
example := C22_compound_default_diverges 1000 { defaults := true } rfl rfl rfl rfl

end Verif
