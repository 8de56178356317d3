import Verif.Core.Deep

/-!
# Importing what was imported

Helper lemmas for idempotence and round trips: for classes without setters and getters and
without trusted data, a successful import is determined by one optional value per field.
-/
namespace Verif

/-- Store a value, or nothing. -/
def ofOpt : Option Val → Outcome
  | some w => .store w
  | none => .skip

/-- No computed (`Serializable`) fields. -/
def ClassDef.Simple (c : ClassDef) : Prop := ∀ fd ∈ c.fields, fd.fget = none ∧ fd.fset = none

/-- The dict with the given value for each field. -/
def tabulate (fds : List FieldDef) (res : FieldDef → Option Val) : Data :=
  fds.filterMap fun fd => (res fd).map fun v => (.str fd.name, v)

theorem tabulate_cons_none {fd : FieldDef} {fds : List FieldDef} {res : FieldDef → Option Val} (h : res fd = none) :
    tabulate (fd :: fds) res = tabulate fds res := by
  simp [tabulate, h]

theorem tabulate_cons_some {fd : FieldDef} {fds : List FieldDef} {res : FieldDef → Option Val} {v : Val}
    (h : res fd = some v) : tabulate (fd :: fds) res = (.str fd.name, v) :: tabulate fds res := by
  simp [tabulate, h]

theorem tabulate_keys {fds : List FieldDef} {res : FieldDef → Option Val} {k : Key} :
    k ∈ (tabulate fds res).keys ↔ ∃ fd ∈ fds, k = .str fd.name ∧ (res fd).isSome := by
  induction fds with
  | nil => simp [tabulate]
  | cons fd fds ih =>
    cases h : res fd with
    | none => rw [tabulate_cons_none h, ih]; simp [h]
    | some v => rw [tabulate_cons_some h, Dict.keys_cons, List.mem_cons, ih]; simp [h]

theorem tabulate_get {fds : List FieldDef} (hnd : (fds.map (·.name)).Nodup) (res : FieldDef → Option Val)
    {fd : FieldDef} (hfd : fd ∈ fds) : Dict.get? (tabulate fds res) (.str fd.name) = res fd := by
  induction fds with
  | nil => cases hfd
  | cons x fds ih =>
    simp only [List.map_cons, List.nodup_cons] at hnd
    have hx : Key.str x.name ∉ (tabulate fds res).keys := by
      rw [tabulate_keys]
      rintro ⟨fd', hm, heq, _⟩
      injection heq with heq
      exact hnd.1 (List.mem_map.2 ⟨fd', hm, heq.symm⟩)
    rcases List.mem_cons.1 hfd with rfl | hm
    · cases h : res fd with
      | none => rw [tabulate_cons_none h]; exact (Dict.get?_eq_none _ _).2 hx
      | some v => rw [tabulate_cons_some h]; simp [Dict.get?]
    · have hne : x.name ≠ fd.name := fun heq => hnd.1 (List.mem_map.2 ⟨fd, hm, heq.symm⟩)
      cases h : res x with
      | none => rw [tabulate_cons_none h]; exact ih hnd.2 hm
      | some v =>
        rw [tabulate_cons_some h, Dict.get?_cons, if_neg (by simpa using hne)]
        exact ih hnd.2 hm

theorem tabulate_nodup {fds : List FieldDef} (hnd : (fds.map (·.name)).Nodup) (res : FieldDef → Option Val) :
    Dict.Nodup (tabulate fds res) := by
  induction fds with
  | nil => exact List.nodup_nil
  | cons x fds ih =>
    simp only [List.map_cons, List.nodup_cons] at hnd
    cases h : res x with
    | none => rw [tabulate_cons_none h]; exact ih hnd.2
    | some v =>
      rw [tabulate_cons_some h]
      unfold Dict.Nodup
      rw [Dict.keys_cons, List.nodup_cons]
      refine ⟨?_, ih hnd.2⟩
      rw [tabulate_keys]
      rintro ⟨fd', hm, heq, _⟩
      injection heq with heq
      exact hnd.1 (List.mem_map.2 ⟨fd', hm, heq.symm⟩)

theorem tabulate_congr {fds : List FieldDef} {res res' : FieldDef → Option Val} (h : ∀ fd ∈ fds, res fd = res' fd) :
    tabulate fds res = tabulate fds res' := by
  induction fds with
  | nil => rfl
  | cons x fds ih =>
    simp only [tabulate, List.filterMap_cons]
    rw [h x (by simp)]
    have := ih fun fd hm => h fd (by simp [hm])
    simp only [tabulate] at this
    rw [this]

theorem filterMap_congr' {α β : Type} {f g : α → Option β} {l : List α} (h : ∀ x ∈ l, f x = g x) :
    l.filterMap f = l.filterMap g := by
  induction l with
  | nil => rfl
  | cons x l ih => simp only [List.filterMap_cons, h x (by simp), ih fun y hy => h y (by simp [hy])]

/-- The view of tabulated data is the data itself. -/
theorem view_tabulate {c : ClassDef} (hc : c.WF) (hs : c.Simple) (res : FieldDef → Option Val) :
    c.view (tabulate c.fields res) = tabulate c.fields res := by
  have : c.view (tabulate c.fields res) =
      tabulate c.fields (fun fd => Dict.get? (tabulate c.fields res) (.str fd.name)) := by
    simp only [ClassDef.view, tabulate]
    apply filterMap_congr'
    intro fd hfd
    have := hs fd hfd
    simp only [this.1, this.2, Option.isSome_none, Bool.false_eq_true, if_false]
    cases Dict.get? _ (Key.str fd.name) <;> rfl
  rw [this]
  exact tabulate_congr fun fd hfd => tabulate_get hc res hfd

theorem set_fresh {d : Data} {k : Key} {v : Val} (h : k ∉ d.keys) : d.set k v = d ++ [(k, v)] := by
  induction d with
  | nil => rfl
  | cons kv d ih =>
    simp only [Dict.keys_cons, List.mem_cons, not_or] at h
    obtain ⟨k', w⟩ := kv
    simp only [Dict.set, if_neg (Ne.symm h.1), ih h.2, List.cons_append]

theorem applyAll_tabulate {fds : List FieldDef} {res : FieldDef → Option Val} (a : Acc)
    (hnd : (fds.map (·.name)).Nodup) (hf : ∀ fd ∈ fds, Key.str fd.name ∉ a.data.keys) :
    applyAll (fds.map fun fd => (fd, ofOpt (res fd))) a =
      ⟨a.data ++ tabulate fds res, a.errs⟩ := by
  induction fds generalizing a with
  | nil => simp [applyAll, tabulate]
  | cons x fds ih =>
    simp only [List.map_cons, List.nodup_cons] at hnd
    rw [List.map_cons, applyAll]
    simp only []
    cases h : res x with
    | none =>
      change applyAll _ a = _
      rw [ih a hnd.2 (fun fd hm => hf fd (by simp [hm])), tabulate_cons_none h]
    | some v =>
      change applyAll _ ⟨a.data.set (.str x.name) v, a.errs⟩ = _
      rw [ih _ hnd.2, tabulate_cons_some h, set_fresh (hf x (by simp))]
      · simp
      · intro fd hm
        simp only [Dict.mem_keys_set, not_or]
        refine ⟨fun heq => ?_, hf fd (by simp [hm])⟩
        injection heq with heq
        exact hnd.1 (List.mem_map.2 ⟨fd, hm, heq⟩)

theorem simple_settable {c : ClassDef} (hs : c.Simple) : c.settable = [] := by
  unfold ClassDef.settable
  rw [List.filter_eq_nil_iff]
  intro fd hfd
  simp [(hs fd hfd).2]

theorem simple_loop {c : ClassDef} (hs : c.Simple) (ctx : Ctx) : c.loopFields ctx = c.fields := by
  unfold ClassDef.loopFields
  split
  · rfl
  · unfold ClassDef.plain
    rw [List.filter_eq_self]
    intro fd hfd
    simp [(hs fd hfd).2]

/-- One field, without trusted data: what the converter is called with and what comes out. -/
def FieldGives (rec : Rec) (env : Env) (ctx : Ctx) (raw : Data) (fd : FieldDef) (r : Option Val) : Prop :=
  ∃ w, rec (if fd.field.ty.isCompound then subCtx env ctx fd.name else ctx) true fd.field
      (fillValue ctx fd (inputValue raw ctx.mapping fd)) = .ok w ∧
    r = if w.isUndef then none else some w

theorem fieldRes_gives {rec : Rec} {env : Env} {ctx : Ctx} (ht : ctx.trusted = []) {raw : Data} {fd : FieldDef}
    {r : Option Val} (h : FieldGives rec env ctx raw fd r) :
    fieldRes rec env ctx raw fd = .ok (ofOpt r) := by
  obtain ⟨w, hw, rfl⟩ := h
  simp only [fieldRes, fieldOutcome, ht, Dict.has, Dict.get?_nil, Option.isSome_none, Bool.and_false,
    Bool.false_eq_true, if_false]
  rw [hw]
  cases hu : w.isUndef <;> simp [hu, ofOpt]

/-- A successful import, field by field. -/
theorem importBody_simple {rec : Rec} {env : Env} {ctx : Ctx} (ht : ctx.trusted = []) {c : ClassDef} (hc : c.WF)
    (hs : c.Simple) {raw d : Data} :
    importBody rec env ctx c raw [] = .ok d ↔
      rogueKeys ctx c raw = [] ∧ ∃ res : FieldDef → Option Val,
        (∀ fd ∈ c.fields, FieldGives rec env ctx raw fd (res fd)) ∧ d = tabulate c.fields res := by
  rw [importBody_eq _ _ _ _ hc, simple_loop hs]
  have hcopy : ∀ x, copySettable c ctx raw x = x := by
    intro x
    unfold copySettable
    rw [simple_settable hs]
    simp
  simp only [hcopy]
  constructor
  · intro h
    cases hos : outcomes (fieldRes rec env ctx raw) c.fields with
    | error e => rw [hos] at h; cases h
    | ok os =>
      rw [hos] at h
      simp only [] at h
      split at h
      · rename_i hemp
        injection h with h
        rw [List.isEmpty_iff, applyAll_errs_empty] at hemp
        refine ⟨?_, ?_⟩
        · have := hemp.1
          simp only at this
          cases hr : rogueKeys ctx c raw with
          | nil => rfl
          | cons k ks =>
            exfalso
            have hm := (mem_startErrs ctx c raw [] k).2 (Or.inr (by rw [hr]; simp))
            rw [this] at hm
            cases hm
        · -- the result of each field
          have hex : ∀ fd ∈ c.fields, ∃ r, FieldGives rec env ctx raw fd r ∧
              fieldRes rec env ctx raw fd = .ok (ofOpt r) := by
            intro fd hfd
            have hmem : fd ∈ os.map (·.1) := by rw [outcomes_map_fst hos]; exact hfd
            obtain ⟨⟨fd', o⟩, hpo, rfl⟩ := List.mem_map.1 hmem
            have ho := outcomes_mem hos _ hpo
            have herr := hemp.2 _ hpo
            simp only [] at ho herr ⊢
            have ho' := ho
            simp only [fieldRes, fieldOutcome, ht, Dict.has, Dict.get?_nil, Option.isSome_none, Bool.and_false,
              Bool.false_eq_true, if_false] at ho
            split at ho
            · rename_i w hw
              refine ⟨_, ⟨w, hw, rfl⟩, ?_⟩
              exact fieldRes_gives ht ⟨w, hw, rfl⟩
            · split at ho
              · injection ho with ho; subst ho; simp [Outcome.err] at herr
              · cases ho
          refine ⟨fun fd => Dict.get? d (.str fd.name), ?_⟩
          have hres : ∃ res : FieldDef → Option Val, ∀ fd ∈ c.fields, FieldGives rec env ctx raw fd (res fd) ∧
              fieldRes rec env ctx raw fd = .ok (ofOpt (res fd)) := by
            classical
            refine ⟨fun fd => if h : fd ∈ c.fields then (hex fd h).choose else none, fun fd hfd => ?_⟩
            simp only [hfd, dif_pos]
            exact (hex fd hfd).choose_spec
          obtain ⟨res, hres⟩ := hres
          have hos2 : os = c.fields.map fun fd => (fd, ofOpt (res fd)) := by
            have hgen : ∀ (fds : List FieldDef) (os : List (FieldDef × Outcome)),
                (∀ fd ∈ fds, fieldRes rec env ctx raw fd = .ok (ofOpt (res fd))) →
                outcomes (fieldRes rec env ctx raw) fds = .ok os →
                os = fds.map fun fd => (fd, ofOpt (res fd)) := by
              intro fds
              induction fds with
              | nil => intro os _ h; simp [outcomes] at h; simp [h]
              | cons x fds ih =>
                intro os hx h
                simp only [outcomes, hx x (by simp)] at h
                cases hr : outcomes (fieldRes rec env ctx raw) fds with
                | error e => rw [hr] at h; cases h
                | ok os' =>
                  rw [hr] at h
                  injection h with h
                  rw [← h, ih os' (fun fd hm => hx fd (by simp [hm])) hr]
                  rfl
            exact hgen _ _ (fun fd hfd => (hres fd hfd).2) hos
          rw [hos2, applyAll_tabulate _ hc (by simp [ht])] at h
          simp only [ht, List.nil_append] at h
          subst h
          refine ⟨fun fd hfd => ?_, ?_⟩
          · simp only []
            rw [tabulate_get hc res hfd]
            exact (hres fd hfd).1
          · exact (tabulate_congr fun fd hfd => tabulate_get hc res hfd).symm
      · cases h
  · rintro ⟨hr, res, hres, rfl⟩
    have hos : outcomes (fieldRes rec env ctx raw) c.fields =
        .ok (c.fields.map fun fd => (fd, ofOpt (res fd))) := by
      have hgen : ∀ (fds : List FieldDef), (∀ fd ∈ fds, FieldGives rec env ctx raw fd (res fd)) →
          outcomes (fieldRes rec env ctx raw) fds =
            .ok (fds.map fun fd => (fd, ofOpt (res fd))) := by
        intro fds
        induction fds with
        | nil => intro _; rfl
        | cons x fds ih =>
          intro hx
          simp only [outcomes, fieldRes_gives ht (hx x (by simp)), ih fun fd hm => hx fd (by simp [hm]), List.map_cons]
      exact hgen _ hres
    rw [hos]
    simp only []
    rw [applyAll_tabulate _ hc (by simp [ht])]
    have : startErrs ctx c raw [] = [] := by simp [startErrs, hr]
    simp [this, ht]

end Verif
