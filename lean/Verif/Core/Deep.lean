import Verif.Props.Compound

/-!
# Statements about every location of a nested result

`Everywhere` is specification vocabulary; the rest are helper lemmas which lift
facts about one call of the field converter to all depths, by induction on fuel.
-/
namespace Verif

/-- `Q named field value` holds at the given location and at every location below it,
following the schema: list items, dict values and the fields of nested models.
`A` holds of each declared field that has no entry in its nested model, and nested
models contain only declared keys.  If `pass` is set, ready-made model instances in
polymorphic fields are exempt (they are passed through unchecked on import). -/
inductive Everywhere (env : Env) (Q : Bool → Field → Val → Prop) (A : FieldDef → Prop) (pass : Bool) :
    Bool → Field → Val → Prop
  | empty {b f v} : v.isEmpty = true → Q b f v → Everywhere env Q A pass b f v
  | leaf {b l o v} : Q b (.mk (.leaf l) o) v → Everywhere env Q A pass b (.mk (.leaf l) o) v
  | list {b inner mn mx o xs} : Q b (.mk (.list inner mn mx) o) (.list xs) →
      (∀ x ∈ xs, Everywhere env Q A pass false inner x) →
      Everywhere env Q A pass b (.mk (.list inner mn mx) o) (.list xs)
  | dict {b inner co o kvs} : Q b (.mk (.dict inner co) o) (.dict kvs) →
      (∀ kv ∈ kvs, Everywhere env Q A pass false inner kv.2) →
      Everywhere env Q A pass b (.mk (.dict inner co) o) (.dict kvs)
  | model {b t o k c d v} : Q b (.mk t o) v →
      ((∃ cls, t = .model cls) ∨ ∃ p, t = .poly p) → env.cls k = some c →
      (v = .inst c.name d ∨ v = .dict d) →
      (∀ key ∈ Dict.keys d, ∃ fd ∈ c.fields, key = .str fd.name) →
      (∀ fd ∈ c.fields, fd.fset = none → Dict.get? d (.str fd.name) = none → A fd) →
      (∀ fd ∈ c.fields, fd.fset = none → ∀ w, Dict.get? d (.str fd.name) = some w →
        Everywhere env Q A pass true fd.field w) →
      Everywhere env Q A pass b (.mk t o) v
  | prebuilt {b p o v} : pass = true → p.allowed env v = true →
      Everywhere env Q A pass b (.mk (.poly p) o) v

mutual
/-- `P` holds of every scalar type occurring in a type (not looking into classes). -/
def FType.AllLeaves (P : Leaf → Prop) : FType → Prop
  | .leaf l => P l
  | .list inner _ _ => inner.AllLeaves P
  | .dict inner _ => inner.AllLeaves P
  | .model _ => True
  | .poly _ => True
/-- The same for a field. -/
def Field.AllLeaves (P : Leaf → Prop) : Field → Prop
  | .mk t _ => t.AllLeaves P
end

/-- `P` holds of every scalar type occurring in a class of the class table. -/
def Env.AllLeaves (env : Env) (P : Leaf → Prop) : Prop :=
  ∀ k c, env.cls k = some c → ∀ fd ∈ c.fields, fd.field.AllLeaves P

/-- All classes have distinct field names. -/
def Env.WF (env : Env) : Prop := ∀ k c, env.cls k = some c → c.WF

/-- Model-level validators only check: they return the data unchanged. -/
def PureValidators (c : ClassDef) : Prop :=
  ∀ nf ∈ c.validators, ∀ mv d v app d', nf.2 mv d v app = .ok d' → d' = d

/-- All model-level validators of the class table only check. -/
def Env.Pure (env : Env) : Prop := ∀ k c, env.cls k = some c → PureValidators c

/-! ## Lemmas -/

theorem importBody_fields {rec : Rec} {env : Env} {ctx : Ctx} {c : ClassDef} (hc : c.WF)
    {raw : Data} {errs0 : Errs} {d : Data} (h : importBody rec env ctx c raw errs0 = .ok d)
    {fd : FieldDef} (hfd : fd ∈ c.fields) (hp : fd.fset = none) :
    (Dict.get? d (.str fd.name) = ctx.trusted.get? (.str fd.name) ∧
      ctx.trusted.has (.str fd.name) = true ∧ (inputValue raw ctx.mapping fd).isUndef = true) ∨
    ∃ w, rec (if fd.field.ty.isCompound then subCtx env ctx fd.name else ctx) true fd.field
        (fillValue ctx fd (inputValue raw ctx.mapping fd)) = .ok w ∧
      Dict.get? d (.str fd.name) =
        if w.isUndef then ctx.trusted.get? (.str fd.name) else some w := by
  rw [importBody_eq _ _ _ _ hc] at h
  cases hos : outcomes (fieldRes rec env ctx raw) (c.loopFields ctx) with
  | error e => rw [hos] at h; cases h
  | ok os =>
    rw [hos] at h
    simp only [] at h
    split at h
    · rename_i hemp
      injection h with h
      rw [List.isEmpty_iff, applyAll_errs_empty] at hemp
      have hl : fd ∈ c.loopFields ctx := mem_loopFields.2 ⟨hfd, Or.inr hp⟩
      have hmem : fd ∈ os.map (·.1) := by rw [outcomes_map_fst hos]; exact hl
      obtain ⟨⟨fd', o⟩, hpo, rfl⟩ := List.mem_map.1 hmem
      have ho := outcomes_mem hos _ hpo
      have herr := hemp.2 _ hpo
      have hd := importBody_data hc hos hl (startErrs ctx c raw errs0) ho
      rw [h] at hd
      simp only [] at hd ho herr ⊢
      rw [hd]
      unfold fieldRes fieldOutcome at ho
      simp only [] at ho
      split at ho
      · rename_i hsk
        injection ho with ho
        subst ho
        left
        simp only [Bool.and_eq_true] at hsk
        exact ⟨rfl, hsk.2, hsk.1⟩
      · right
        split at ho
        · rename_i w hw
          refine ⟨w, hw, ?_⟩
          split at ho
          · rename_i hu; injection ho with ho; subst ho; simp [Outcome.stored, hu]
          · rename_i hu; injection ho with ho; subst ho; simp [Outcome.stored, hu]
        · split at ho
          · injection ho with ho; subst ho; simp [Outcome.err] at herr
          · cases ho
    · cases h

theorem importBody_ok_keys {rec : Rec} {env : Env} {ctx : Ctx} {c : ClassDef} {raw : Data}
    {errs0 : Errs} {d : Data} (h : importBody rec env ctx c raw errs0 = .ok d) {k : Key}
    (hk : k ∈ Dict.keys d) : k ∈ ctx.trusted.keys ∨ ∃ fd ∈ c.fields, k = .str fd.name := by
  refine importBody_keys (rec := rec) (env := env) (raw := raw) (errs0 := errs0) ?_
  rw [h]; exact hk

theorem modelValidators_pure {c : ClassDef} (hp : PureValidators c) {mv : Data} {app : Val}
    {fds : List FieldDef} {d : Data} {r : Errs × List String × Data}
    (h : modelValidators c mv app fds d = .ok r) :
    r.2.2 = d ∧ (r.1 = [] ↔ r.2.1 = []) := by
  induction fds generalizing d r with
  | nil => simp [modelValidators] at h; subst h; simp
  | cons fd fds ih =>
    simp only [modelValidators] at h
    split at h
    · exact ih h
    · rename_i f hf
      split at hf
      · cases hf
      · split at h
        · rename_i d' hd'
          have := hp _ (Dict.mem_of_get? hf) _ _ _ _ _ hd'
          subst this
          exact ih h
        · split at h
          · cases h
          · split at h
            · cases h
            · rename_i hr
              injection h with h
              subst h
              exact ⟨(ih hr).1, by simp⟩

theorem update_eq_nil {V : Type} {es es2 : Dict Key V} (h : es.update es2 = []) : es = [] ∧ es2 = [] := by
  have hk : ∀ k, k ∉ Dict.keys (es.update es2) := by rw [h]; simp
  constructor
  · cases es with
    | nil => rfl
    | cons a es =>
      exact absurd ((Dict.mem_keys_update _ _ a.1).2 (Or.inl (by simp))) (hk a.1)
  · cases es2 with
    | nil => rfl
    | cons a es2 =>
      exact absurd ((Dict.mem_keys_update _ _ a.1).2 (Or.inr (by simp))) (hk a.1)

theorem validateModel_pure {c : ClassDef} (hp : PureValidators c) {mv : Data} {app : Val} {d d' : Data}
    (h : validateModel c mv app d = .ok ([], d')) : d' = d := by
  unfold validateModel at h
  split at h
  · cases h
  · rename_i es inv d1 hmv
    split at h
    · cases h
    · rename_i d2 hpop
      injection h with h
      injection h with h1 h2
      obtain ⟨hd, hiff⟩ := modelValidators_pure hp hmv
      simp only [] at hd hiff
      have hes : es = [] := (update_eq_nil h1).2
      have hinv := hiff.1 hes
      subst hinv
      simp [popAll] at hpop
      subst h2 hpop hd
      rfl

/-- A successful validation: the field loop succeeded on some input, and the
model-level validators reported nothing. -/
theorem validateFn_ok {rec : Rec} {env : Env} {ctx : Ctx} {c : ClassDef} {mu : Mut} {raw d : Data}
    (h : validateFn rec env ctx c mu raw = .ok d) :
    ∃ m d0, runMutate rec ctx c mu raw = .ok m ∧
      importBody rec env ctx c m.raw m.errs = .ok d0 ∧ validateModel c m.data ctx.app d0 = .ok ([], d) := by
  unfold validateFn at h
  split at h
  · cases h
  · rename_i m hm
    cases hb : importBody rec env ctx c m.raw m.errs with
    | ok d0 =>
      rw [hb] at h
      simp only [] at h
      cases hv : validateModel c m.data ctx.app d0 with
      | error e => rw [hv] at h; cases h
      | ok r =>
        obtain ⟨es2, d'⟩ := r
        rw [hv] at h
        simp only [] at h
        split at h
        · rename_i he
          rw [List.isEmpty_iff] at he
          injection h with h
          have := (update_eq_nil he).2
          subst this h
          exact ⟨m, d0, hm, hb, hv⟩
        · cases h
    | error e =>
      rw [hb] at h
      cases e with
      | data es p =>
        simp only [] at h
        cases hv : validateModel c m.data ctx.app p with
        | error e => rw [hv] at h; cases h
        | ok r =>
          obtain ⟨es2, d'⟩ := r
          rw [hv] at h
          simp only [] at h
          split at h
          · rename_i he
            rw [List.isEmpty_iff] at he
            -- errors of a failed import body are never empty
            exfalso
            have hes := (update_eq_nil he).1
            unfold importBody at hb
            simp only [] at hb
            split at hb
            · rename_i he'
              injection hb with hb
              subst hb
              exact importFields_noData es p he'
            · split at hb
              · cases hb
              · rename_i hne
                injection hb with hb
                injection hb with hb1 hb2
                rw [hb1, hes] at hne
                simp at hne
          · cases h
      | _ => cases h

/-- Every way of importing a nested model ends in the field loop. -/
theorem importLoop_ok {rec : Rec} {env : Env} {ctx : Ctx} {c : ClassDef} {mu : Mut} {raw d : Data}
    (h : importLoop rec env ctx c mu raw = .ok d) :
    ∃ raw' errs, importBody rec env ctx c raw' errs = .ok d := by
  unfold importLoop at h
  split at h
  · split at h
    · cases h
    · exact ⟨_, _, h⟩
  · exact ⟨_, _, h⟩

theorem newInstance_ok {rec : Rec} {env : Env} {ctx : Ctx} {c : ClassDef} (hp : PureValidators c)
    {raw : Data} {w : Val} (h : newInstance rec env ctx c raw = .ok w) :
    ∃ raw' errs d, importBody rec env ctx c raw' errs = .ok d ∧ w = .inst c.name d := by
  unfold newInstance at h
  split at h
  · cases h
  · rename_i d hd
    injection h with h
    split at hd
    · obtain ⟨m, d0, _, h2, h3⟩ := validateFn_ok hd
      rw [validateModel_pure hp h3] at h
      exact ⟨_, _, d0, h2, h.symm⟩
    · obtain ⟨raw', errs, hb⟩ := importLoop_ok hd
      exact ⟨raw', errs, d, hb, h.symm⟩

theorem modelInto_ok {rec : Rec} {env : Env} {ctx : Ctx} {c : ClassDef} (hp : PureValidators c)
    {raw : Data} {b : Bool} {w : Val} (h : modelInto rec env ctx c raw b = .ok w) :
    ∃ raw' errs d, importBody rec env ctx c raw' errs = .ok d ∧ (w = .inst c.name d ∨ w = .dict d) := by
  unfold modelInto at h
  split at h
  · obtain ⟨r, e, d, h1, h2⟩ := newInstance_ok hp h
    exact ⟨r, e, d, h1, Or.inl h2⟩
  · split at h
    · cases h
    · rename_i d hd
      injection h with h
      obtain ⟨raw', errs, hb⟩ := importLoop_ok hd
      exact ⟨raw', errs, d, hb, Or.inr h.symm⟩

theorem modelConv_ok {rec : Rec} {env : Env} {ctx : Ctx} (hp : env.Pure) {cls : String} {v w : Val}
    (h : modelConv rec env ctx cls v = .ok w) :
    ∃ k c raw' errs d, env.cls k = some c ∧ importBody rec env ctx c raw' errs = .ok d ∧
      (w = .inst c.name d ∨ w = .dict d) := by
  unfold modelConv at h
  split at h
  · split at h
    · split at h
      · rename_i c hc
        obtain ⟨r, e, d, h1, h2⟩ := modelInto_ok (hp _ _ hc) h
        exact ⟨_, c, r, e, d, hc, h1, h2⟩
      · cases h
    · cases h
  · split at h
    · rename_i c hc
      obtain ⟨r, e, d, h1, h2⟩ := modelInto_ok (hp _ _ hc) h
      exact ⟨_, c, r, e, d, hc, h1, h2⟩
    · cases h
  · cases h

theorem polyConv_ok {rec : Rec} {env : Env} {ctx : Ctx} (hp : env.Pure) {p : PolySpec} {v w : Val}
    (h : polyConv rec env ctx p v = .ok w) :
    (ctx.validate = false ∧ p.allowed env v = true ∧ w = v) ∨
    ∃ k c raw' errs d, env.cls k = some c ∧ importBody rec env ctx c raw' errs = .ok d ∧
      w = .inst c.name d := by
  unfold polyConv at h
  split at h
  · rename_i ha
    injection h with h
    simp only [Bool.and_eq_true, Bool.not_eq_true'] at ha
    exact Or.inl ⟨ha.1, ha.2, h.symm⟩
  · split at h
    · cases h
    · right
      split at h
      · cases h
      · rename_i k hk
        split at h
        · cases h
        · rename_i c hc
          have hpc := hp _ _ hc
          split at h
          · obtain ⟨r, e, d, h1, h2⟩ := newInstance_ok hpc h
            exact ⟨_, c, r, e, d, hc, h1, h2⟩
          · obtain ⟨r, e, d, h1, h2⟩ := newInstance_ok hpc h
            exact ⟨_, c, r, e, d, hc, h1, h2⟩
          · split at h
            · cases h
            · obtain ⟨r, e, d, h1, h2⟩ := newInstance_ok hpc h
              exact ⟨_, c, r, e, d, hc, h1, h2⟩

theorem all2_mem {α β : Type} {P : α → β → Prop} {xs : List α} {ys : List β} (h : All2 P xs ys) :
    ∀ y ∈ ys, ∃ x ∈ xs, P x y := by
  induction h with
  | nil => simp
  | cons a _ ih =>
    intro y hy
    rcases List.mem_cons.1 hy with rfl | hy
    · exact ⟨_, by simp, a⟩
    · obtain ⟨x, hx, hp⟩ := ih y hy
      exact ⟨x, by simp [hx], hp⟩

theorem listConv_ok {f : Val → R Val} {xs : List Val} {w : Val} (h : listConv f xs = .ok w) :
    ∃ ys, w = .list ys ∧ All2 (fun x y => f x = .ok y) xs ys := by
  unfold listConv at h
  split at h
  · cases h
  · rename_i ys es hl
    split at h
    · rename_i he
      rw [List.isEmpty_iff] at he
      injection h with h
      exact ⟨ys, h.symm, (listLoop_ok hl).1.1 he⟩
    · cases h

theorem dictLoop_vals {f : Val → R Val} {co : Key → R Key} {kvs : List (Key × Val)} {d d' : Data}
    {es es' : Errs} (h : dictLoop f co kvs d es = .ok (d', es')) :
    ∀ kv ∈ d', kv ∈ d ∨ ∃ x, f x = .ok kv.2 := by
  induction kvs generalizing d es with
  | nil => simp [dictLoop] at h; intro kv hkv; rw [← h.1] at hkv; exact Or.inl hkv
  | cons kx kvs ih =>
    obtain ⟨k0, x0⟩ := kx
    rw [dictLoop_cons] at h
    cases he : convEntry f co k0 x0 with
    | ok p =>
      obtain ⟨k', y⟩ := p
      rw [he] at h
      intro kv hkv
      have hy : f x0 = .ok y := by
        unfold convEntry at he
        split at he
        · cases he
        · rename_i y' hy'
          split at he
          · cases he
          · injection he with he; injection he with h1 h2; rw [← h2]; exact hy'
      rcases ih h kv hkv with h1 | h1
      · have hset : ∀ (dd : Data), kv ∈ Dict.set dd k' y → kv ∈ dd ∨ kv = (k', y) := by
          intro dd
          induction dd with
          | nil => intro h; simp [Dict.set] at h; exact Or.inr h
          | cons a dd ihd =>
            intro h
            obtain ⟨ak, av⟩ := a
            simp only [Dict.set] at h
            split at h
            · rename_i heq
              rcases List.mem_cons.1 h with h | h
              · right; rw [h, heq]
              · exact Or.inl (by simp [h])
            · rcases List.mem_cons.1 h with h | h
              · exact Or.inl (by simp [h])
              · rcases ihd h with h | h
                · exact Or.inl (by simp [h])
                · exact Or.inr h
        rcases hset d h1 with h1 | h1
        · exact Or.inl h1
        · right; exact ⟨x0, by rw [h1]; exact hy⟩
      · exact Or.inr h1
    | error e =>
      rw [he] at h
      simp only [] at h
      split at h
      · exact ih h
      · cases h

theorem dictConv_ok {f : Val → R Val} {co : Key → R Key} {kvs : List (Key × Val)} {w : Val}
    (h : dictConv f co kvs = .ok w) : ∃ d, w = .dict d ∧ ∀ kv ∈ d, ∃ x, f x = .ok kv.2 := by
  unfold dictConv at h
  split at h
  · cases h
  · rename_i d es hl
    split at h
    · injection h with h
      refine ⟨d, h.symm, fun kv hkv => ?_⟩
      rcases dictLoop_vals hl kv hkv with h | h
      · cases h
      · exact h
    · cases h

theorem subCtx_eq {env : Env} {ctx : Ctx} (ht : ctx.trusted = []) (name : String) :
    ∃ m, subCtx env ctx name = { ctx with mapping := m } := by
  refine ⟨(subCtx env ctx name).mapping, ?_⟩
  unfold subCtx
  simp [ht]

theorem finishValidation_ok {app v w : Val} {gs : List Validator}
    (h : finishValidation app v gs = .ok w) : w = v ∧ runValidators app v gs = .ok none := by
  unfold finishValidation at h
  split at h
  · cases h
  · injection h with h; exact ⟨h.symm, by assumption⟩
  · cases h

theorem fieldConvF_compound {rec : Rec} {env : Env} {ctx : Ctx} {b : Bool} {f : Field} {v w : Val}
    (hmode : ctx.conv = .imp ∨ ctx.convert = true) (hv : v.isEmpty = false)
    (hc : f.ty.isCompound = true) (h : fieldConvF rec env ctx b f v = .ok w) :
    convertF rec env ctx f v = .ok w := by
  unfold fieldConvF at h
  split at h
  · cases h
  · rw [hv] at h
    simp only [Bool.false_eq_true, if_false] at h
    cases hcc : ctx.conv with
    | imp => rw [hcc] at h; exact h
    | val =>
      rw [hcc] at h
      have hcv : ctx.convert = true := by
        rcases hmode with h' | h'
        · rw [h'] at hcc; cases hcc
        · exact h'
      have hov : f.ty.override = none := by
        cases ht : f.ty with
        | leaf l => rw [ht] at hc; cases hc
        | _ => rfl
      simp only [validateF, hov, hcv, if_true] at h
      split at h
      · cases h
      · rename_i w' hw'
        rw [(finishValidation_ok h).1]; exact hw'

/-- Lifting a fact about single calls of the converter to every depth. -/
theorem everywhere_conv {env : Env} (hwf : env.WF) (hpure : env.Pure) {P : Leaf → Prop}
    (hleaves : env.AllLeaves P) {Q : Bool → Field → Val → Prop} {A : FieldDef → Prop} (ctx : Ctx)
    (ht : ctx.trusted = []) (hmode : ctx.conv = .imp ∨ ctx.convert = true)
    (hQ : ∀ n m b f v w, Field.AllLeaves P f →
      fieldConv env n { ctx with mapping := m } b f v = .ok w → Q b f w)
    (hA : ∀ n m fd v w, Field.AllLeaves P fd.field → w.isUndef = true →
      fieldConv env n { ctx with mapping := m } true fd.field v = .ok w → A fd) :
    ∀ n m b f v w, Field.AllLeaves P f → fieldConv env n { ctx with mapping := m } b f v = .ok w →
      Everywhere env Q A (!ctx.validate) b f w := by
  intro n
  induction n with
  | zero => intro m b f v w _ h; cases h
  | succ n ih =>
    intro m b f v w hl h
    have hq := hQ _ _ _ _ _ _ hl h
    by_cases hv : v.isEmpty = true
    · simp only [fieldConv, fieldConvF] at h
      split at h
      · cases h
      · cases h
        exact .empty hv hq
    · -- reduce to the conversion
      have hconv : (∃ l o, f = .mk (.leaf l) o) ∨ (f.ty.isCompound = true ∧
          convertF (fieldConv env n) env { ctx with mapping := m } f v = .ok w) := by
        cases hcomp : f.ty.isCompound with
        | false =>
          obtain ⟨t, o⟩ := f
          cases t with
          | leaf l => exact Or.inl ⟨l, o, rfl⟩
          | _ => cases hcomp
        | true => exact Or.inr ⟨rfl, fieldConvF_compound hmode (by simpa using hv) hcomp h⟩
      rcases hconv with ⟨l, o, rfl⟩ | ⟨hcomp, hconv⟩
      · exact .leaf hq
      · -- nested models
        have hbody : ∀ k c raw' errs d, env.cls k = some c →
            importBody (fieldConv env n) env { ctx with mapping := m } c raw' errs = .ok d →
            (∀ key ∈ Dict.keys d, ∃ fd ∈ c.fields, key = .str fd.name) ∧
            (∀ fd ∈ c.fields, fd.fset = none → Dict.get? d (.str fd.name) = none → A fd) ∧
            (∀ fd ∈ c.fields, fd.fset = none → ∀ w, Dict.get? d (.str fd.name) = some w →
              Everywhere env Q A (!ctx.validate) true fd.field w) := by
          intro k c raw' errs d hcls hb
          have hfl : ∀ fd ∈ c.fields, fd.field.AllLeaves P := hleaves k c hcls
          have hstep : ∀ fd ∈ c.fields, fd.fset = none → ∃ m' v' w',
              fieldConv env n { ctx with mapping := m' } true fd.field v' = .ok w' ∧
              Dict.get? d (.str fd.name) = if w'.isUndef then none else some w' := by
            intro fd hfd hp
            rcases importBody_fields (hwf k c hcls) hb hfd hp with ⟨_, h2, _⟩ | ⟨w', h1, h2⟩
            · simp [ht, Dict.has] at h2
            · simp only [ht, Dict.get?_nil] at h2
              split at h1
              · obtain ⟨m', hm'⟩ := subCtx_eq (env := env) (ctx := { ctx with mapping := m }) ht fd.name
                rw [hm'] at h1
                exact ⟨m', _, w', h1, h2⟩
              · exact ⟨m, _, w', h1, h2⟩
          refine ⟨?_, ?_, ?_⟩
          · intro key hkey
            rcases importBody_ok_keys hb hkey with h | h
            · simp [ht] at h
            · exact h
          · intro fd hfd hp hnone
            obtain ⟨m', v', w', h1, h2⟩ := hstep fd hfd hp
            rw [hnone] at h2
            split at h2
            · rename_i hu; exact hA _ _ fd _ _ (hfl fd hfd) hu h1
            · cases h2
          · intro fd hfd hp w0 hsome
            obtain ⟨m', v', w', h1, h2⟩ := hstep fd hfd hp
            rw [hsome] at h2
            split at h2
            · cases h2
            · injection h2 with h2; subst h2
              exact ih _ _ _ _ _ (hfl fd hfd) h1
        obtain ⟨t, o⟩ := f
        cases t with
        | leaf l => cases hcomp
        | list inner mn mx =>
          simp only [convertF, Field.ty_mk] at hconv
          split at hconv
          · cases hconv
          · rename_i xs hxs
            obtain ⟨ys, rfl, hall⟩ := listConv_ok hconv
            refine .list hq fun y hy => ?_
            obtain ⟨x, _, hx⟩ := all2_mem hall y hy
            exact ih _ _ _ _ _ (by simpa [Field.AllLeaves, FType.AllLeaves] using hl) hx
        | dict inner co =>
          simp only [convertF, Field.ty_mk] at hconv
          split at hconv
          · obtain ⟨d, rfl, hall⟩ := dictConv_ok hconv
            refine .dict hq fun kv hkv => ?_
            obtain ⟨x, hx⟩ := hall kv hkv
            exact ih _ _ _ _ _ (by simpa [Field.AllLeaves, FType.AllLeaves] using hl) hx
          · cases hconv
        | model cls =>
          simp only [convertF, Field.ty_mk] at hconv
          obtain ⟨k, c, raw', errs, d, hcls, hb, hw⟩ := modelConv_ok hpure hconv
          obtain ⟨h1, h2, h3⟩ := hbody k c raw' errs d hcls hb
          exact .model hq (Or.inl ⟨cls, rfl⟩) hcls hw h1 h2 h3
        | poly p =>
          simp only [convertF, Field.ty_mk] at hconv
          rcases polyConv_ok hpure hconv with ⟨h1, h2, h3⟩ | ⟨k, c, raw', errs, d, hcls, hb, hw⟩
          · subst h3
            simp only [] at h1
            exact .prebuilt (by simp [h1]) h2
          · obtain ⟨h1, h2, h3⟩ := hbody k c raw' errs d hcls hb
            exact .model hq (Or.inr ⟨p, rfl⟩) hcls (Or.inl hw) h1 h2 h3

end Verif
