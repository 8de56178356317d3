import Verif.Samples
import Verif.Core.ExportLemmas

/-! # Export properties (C23-C25, C27, C29, C30) -/
namespace Verif

/-! ## Specification vocabulary -/

/-- The filter in force for class `c`, by the documented rule: a callable role is
used as it is; a role name means the role of that name in the class; without a role,
or with a name the class does not know, the class's `default` role (`none` = no
filter at all). -/
inductive RoleInForce (ctx : ECtx) (c : ClassDef) : Option RoleFn → Prop
  | callable {f} : ctx.role = some (.call f) → RoleInForce ctx c (some f)
  | named {r f} : ctx.role = some (.name r) → Dict.get? c.roles r = some f → RoleInForce ctx c (some f)
  | unknown {r} : ctx.role = some (.name r) → Dict.get? c.roles r = none →
      RoleInForce ctx c (Dict.get? c.roles "default")
  | absent : ctx.role = none → RoleInForce ctx c (Dict.get? c.roles "default")

/-- The role name is an error for `c`. -/
def RoleError (ctx : ECtx) (c : ClassDef) : Prop :=
  ctx.raiseOnRole = true ∧ ∃ r, r ≠ "" ∧ ctx.role = some (.name r) ∧ Dict.get? c.roles r = none

/-- A field the filter lets through, for the value it has in `src`. -/
def Passes (flt : Option RoleFn) (src : Src) (fd : FieldDef) : Prop :=
  ∀ g, flt = some g → g fd.name (src.read fd) = false

/-- The level that applies to a field: the call's, else the field's, else the model's. -/
inductive LevelOf (ctx : ECtx) (c : ClassDef) (fd : FieldDef) : Nat → Prop
  | call {l} : ctx.level = some l → LevelOf ctx c fd l
  | field {l} : ctx.level = none → fd.field.o.exportLevel = some l → LevelOf ctx c fd l
  | model : ctx.level = none → fd.field.o.exportLevel = none → LevelOf ctx c fd c.exportLevel

/-- Shown at level `l`?  `w` is the exported form of the field's value. -/
inductive ShownAt (l : Nat) (f : Field) : Val → Prop
  | undefined : l > DEFAULT → ShownAt l f .undef
  | null : l > NOT_NONE → ShownAt l f .none
  | emptyCompound {w} : w ≠ .none → w ≠ .undef → f.ty.isCompound = true → pyLen w = 0 →
      l > NONEMPTY → ShownAt l f w
  | other {w} : w ≠ .none → w ≠ .undef → ¬ (f.ty.isCompound = true ∧ pyLen w = 0) →
      ShownAt l f w

/-! ## Lemmas -/

theorem roleFilter_spec (ctx : ECtx) (c : ClassDef) :
    (RoleError ctx c ∧ roleFilter ctx c = none) ∨
    (¬ RoleError ctx c ∧ ∃ flt, roleFilter ctx c = some flt ∧ RoleInForce ctx c flt) := by
  unfold roleFilter RoleError
  cases hr : ctx.role with
  | none => exact Or.inr ⟨by simp, _, rfl, .absent hr⟩
  | some a =>
    cases a with
    | call f => exact Or.inr ⟨by simp, _, rfl, .callable hr⟩
    | name r =>
      simp only []
      cases hg : Dict.get? c.roles r with
      | some f => 
        refine Or.inr ⟨?_, _, rfl, .named hr hg⟩
        rintro ⟨_, r', _, h, h'⟩
        cases h; rw [hg] at h'; cases h'
      | none =>
        simp only []
        by_cases hc : r ≠ "" ∧ ctx.raiseOnRole = true
        · rw [if_pos hc]; exact Or.inl ⟨⟨hc.2, r, hc.1, rfl, hg⟩, rfl⟩
        · rw [if_neg hc]
          refine Or.inr ⟨?_, _, rfl, .unknown hr hg⟩
          rintro ⟨h1, r', h2, h3, _⟩
          injection h3 with h3; injection h3 with h3
          subst h3; exact hc ⟨h2, h1⟩

theorem roleInForce_unique {ctx : ECtx} {c : ClassDef} {a b : Option RoleFn}
    (h1 : RoleInForce ctx c a) (h2 : RoleInForce ctx c b) : a = b := by
  cases h1 <;> cases h2 <;> simp_all

theorem levelOf_iff (ctx : ECtx) (c : ClassDef) (fd : FieldDef) (l : Nat) :
    LevelOf ctx c fd l ↔ exportLevelOf ctx c.exportLevel fd.field = l := by
  unfold exportLevelOf
  constructor
  · intro h
    cases h with
    | call h => rw [h]
    | field h1 h2 => rw [h1, h2]; rfl
    | model h1 h2 => rw [h1, h2]; rfl
  · intro h
    cases hl : ctx.level with
    | some x => rw [hl] at h; simp only [] at h; subst h; exact .call hl
    | none =>
      rw [hl] at h
      cases hf : fd.field.o.exportLevel with
      | some x => rw [hf] at h; simp only [Option.getD_some] at h; subst h; exact .field hl hf
      | none => rw [hf] at h; simp only [Option.getD_none] at h; subst h; exact .model hl hf

theorem shownAt_iff (l : Nat) (f : Field) (w : Val) : ShownAt l f w ↔ hidden l f w = false := by
  unfold hidden emptyCompound
  constructor
  · intro h
    cases h with
    | undefined h => simp [Val.isUndef]; exact h
    | null h => simp [Val.isUndef, Val.isEmpty]; exact h
    | emptyCompound h1 h2 h3 h4 h5 =>
      have hu : w.isUndef = false := by cases hx : w.isUndef <;> simp_all [Val.isUndef_iff]
      have he : w.isEmpty = false := by cases hx : w.isEmpty <;> simp_all [Val.isEmpty_iff]
      simp [hu, he, h3, h4]; omega
    | other h1 h2 h3 =>
      have hu : w.isUndef = false := by cases hx : w.isUndef <;> simp_all [Val.isUndef_iff]
      have he : w.isEmpty = false := by cases hx : w.isEmpty <;> simp_all [Val.isEmpty_iff]
      by_cases hc : f.ty.isCompound = true
      · have : pyLen w ≠ 0 := fun h => h3 ⟨hc, h⟩
        simp [hu, he, hc, this]
      · simp [hu, he, hc]
  · intro h
    cases hu : w.isUndef with
    | true =>
      rw [Val.isUndef_iff] at hu; subst hu
      simp [Val.isUndef] at h
      exact .undefined h
    | false =>
      cases he : w.isEmpty with
      | true =>
        rw [Val.isEmpty_iff] at he
        rcases he with rfl | rfl
        · simp [Val.isUndef, Val.isEmpty] at h; exact .null h
        · cases hu
      | false =>
        have h1 : w ≠ .none := by rintro rfl; cases he
        have h2 : w ≠ .undef := by rintro rfl; cases he
        simp only [hu, he] at h
        by_cases hc : f.ty.isCompound = true ∧ pyLen w = 0
        · simp [hc.1, hc.2] at h
          exact .emptyCompound h1 h2 hc.1 hc.2 (by omega)
        · exact .other h1 h2 hc

theorem shownAt_dec (l : Nat) (f : Field) (w : Val) : ShownAt l f w ∨ ¬ ShownAt l f w := by
  rw [shownAt_iff]; cases hidden l f w <;> simp

/-- What one field contributes to the export. -/
theorem exportField_cases {rec : ERec} {ctx : ECtx} {c : ClassDef} {flt : Option RoleFn} {src : Src}
    {fd : FieldDef} {o : Option Val} (h : exportField rec ctx c.exportLevel flt src fd = .ok o) :
    (o = none ∧ ¬ Passes flt src fd) ∨
    (Passes flt src fd ∧ o = none ∧ LevelOf ctx c fd DROP) ∨
    (Passes flt src fd ∧ ∃ l w, LevelOf ctx c fd l ∧ l ≠ DROP ∧
      (if (src.read fd).isEmpty then .ok (src.read fd) else rec c.exportLevel fd.field (src.read fd)) = Except.ok w ∧
      ((ShownAt l fd.field w ∧ o = some (nullify w)) ∨ (¬ ShownAt l fd.field w ∧ o = none))) := by
  unfold exportField at h
  simp only [] at h
  have hpass : Passes flt src fd ↔ skipped flt fd.name (src.read fd) = false := by
    unfold Passes skipped
    cases flt <;> simp
  by_cases hs : skipped flt fd.name (src.read fd) = true
  · rw [if_pos hs] at h
    injection h with h
    exact Or.inl ⟨h.symm, by rw [hpass, hs]; simp⟩
  · rw [if_neg hs] at h
    have hp : Passes flt src fd := hpass.2 (by simpa using hs)
    right
    by_cases hd : exportLevelOf ctx c.exportLevel fd.field = DROP
    · rw [if_pos hd] at h
      injection h with h
      exact Or.inl ⟨hp, h.symm, (levelOf_iff _ _ _ _).2 hd⟩
    · rw [if_neg hd] at h
      split at h
      · cases h
      · rename_i w hw
        refine Or.inr ⟨hp, _, w, (levelOf_iff _ _ _ _).2 rfl, hd, hw, ?_⟩
        split at h
        · rename_i hh
          injection h with h
          exact Or.inr ⟨by rw [shownAt_iff, hh]; simp, h.symm⟩
        · rename_i hh
          injection h with h
          exact Or.inl ⟨by rw [shownAt_iff]; simpa using hh, h.symm⟩

theorem runExport_only {env : Env} {n : Nat} {ctx : ECtx} {c : ClassDef} {src : Src} {flt : Option RoleFn}
    (hflt : roleFilter ctx c = some flt) {fd : FieldDef} {o : Option Val}
    (h : exportField (fieldExport env ctx n) ctx c.exportLevel flt src fd = .ok o) :
    runExport env n ctx (only c fd) src = .ok (entryOf fd o) := by
  unfold runExport
  have : roleFilter ctx (only c fd) = some flt := hflt
  rw [exportLoop_of (f := fun _ => o) this (by
    intro x hx
    simp only [only, List.mem_singleton] at hx
    subst hx; exact h)]
  cases o <;> simp [only, entryOf, Dict.update, Dict.set]

/-! ## Theorems -/

/-- **C30.** The exported dict is the concatenation, in declaration order, of what each
field exports on its own (nothing, or one entry under its external name); if external
names collide the later field wins (dict update). -/
theorem C30_export_in_field_order (env : Env) (n : Nat) (ctx : ECtx) (c : ClassDef) (src : Src) (d : Data)
    (h : runExport env n ctx c src = .ok d) :
    ∃ out : FieldDef → Data,
      (∀ fd ∈ c.fields, runExport env n ctx (only c fd) src = .ok (out fd) ∧
        (out fd = [] ∨ ∃ w, out fd = [(.str fd.extName, w)])) ∧
      d = Dict.update [] (c.fields.flatMap out) ∧
      d.Nodup ∧
      (DistinctExt c → d = c.fields.flatMap out) := by
  obtain ⟨flt, f, h1, h2, h3⟩ := exportLoop_ok h
  refine ⟨fun fd => entryOf fd (f fd), fun fd hfd => ⟨runExport_only h1 (h2 fd hfd), ?_⟩, h3, ?_, ?_⟩
  · show entryOf fd (f fd) = [] ∨ ∃ w, entryOf fd (f fd) = _
    cases f fd with
    | none => exact Or.inl rfl
    | some w => exact Or.inr ⟨w, rfl⟩
  · rw [h3]; exact Dict.nodup_update (by simp [Dict.Nodup]) _
  · intro hd
    rw [h3, update_fresh]
    · simp
    · simpa using flatMap_entry_nodup f c.fields hd

/-- The export of a model fails iff the role is an error or the export of some field fails. -/
theorem C30_export_succeeds (env : Env) (n : Nat) (ctx : ECtx) (c : ClassDef) (src : Src) :
    (∃ d, runExport env n ctx c src = .ok d) ↔
      (¬ RoleError ctx c ∧ ∀ fd ∈ c.fields, ∃ d, runExport env n ctx (only c fd) src = .ok d) := by
  constructor
  · rintro ⟨d, h⟩
    obtain ⟨out, h1, _⟩ := C30_export_in_field_order env n ctx c src d h
    refine ⟨?_, fun fd hfd => ⟨_, (h1 fd hfd).1⟩⟩
    rcases roleFilter_spec ctx c with ⟨_, hr⟩ | ⟨hr, _⟩
    · unfold runExport exportLoop at h; rw [hr] at h; cases h
    · exact hr
  · rintro ⟨hr, h⟩
    rcases roleFilter_spec ctx c with ⟨hr', _⟩ | ⟨_, flt, hflt, _⟩
    · exact absurd hr' hr
    · unfold runExport exportLoop
      rw [hflt]
      simp only [exportFields_eq]
      cases ho : exportOuts (exportField (fieldExport env ctx n) ctx c.exportLevel flt src) c.fields with
      | ok kvs => exact ⟨_, rfl⟩
      | error e =>
        obtain ⟨fd, hfd, he⟩ := exportOuts_error ho
        obtain ⟨d, hd⟩ := h fd hfd
        unfold runExport exportLoop at hd
        have hf' : roleFilter ctx (only c fd) = some flt := hflt
        rw [hf'] at hd
        simp only [exportFields_eq, only, exportOuts] at hd
        have he' : exportField (fieldExport env ctx n) ctx c.exportLevel flt src fd = .error e := he
        rw [he'] at hd
        cases hd

/-- **C27.** At effective level `l`, a field that passes the filter is exported iff `l` is
not `DROP` and its exported value `w` is of a class shown at `l`; it is then exported as
`w` (`None` for an undefined value). -/
theorem C27_levels_decide_presence (env : Env) (n : Nat) (ctx : ECtx) (c : ClassDef) (src : Src) (d : Data)
    (hext : DistinctExt c) (h : runExport env n ctx c src = .ok d)
    (flt : Option RoleFn) (hflt : RoleInForce ctx c flt)
    (fd : FieldDef) (hfd : fd ∈ c.fields) (l : Nat) (hl : LevelOf ctx c fd l) :
    (¬ Passes flt src fd → Dict.get? d (.str fd.extName) = none) ∧
    (l = DROP → Dict.get? d (.str fd.extName) = none) ∧
    (Passes flt src fd → l ≠ DROP →
      ∃ w, ((src.read fd).isEmpty = true ∧ w = src.read fd ∨
            (src.read fd).isEmpty = false ∧ fieldExport env ctx n c.exportLevel fd.field (src.read fd) = .ok w) ∧
        (ShownAt l fd.field w → Dict.get? d (.str fd.extName) = some (if w.isUndef then .none else w)) ∧
        (¬ ShownAt l fd.field w → Dict.get? d (.str fd.extName) = none)) := by
  obtain ⟨flt', f, h1, h2, h3⟩ := exportLoop_ok h
  have hff : flt' = flt := by
    rcases roleFilter_spec ctx c with ⟨_, hr⟩ | ⟨_, g, hg, hin⟩
    · rw [hr] at h1; cases h1
    · rw [h1] at hg; injection hg with hg; subst hg; exact roleInForce_unique hin hflt
  subst hff
  have hnd := flatMap_entry_nodup f c.fields hext
  have hd : d = c.fields.flatMap fun fd => entryOf fd (f fd) := by
    rw [h3, update_fresh]
    · simp
    · simpa using hnd
  have hget : Dict.get? d (.str fd.extName) = f fd := by
    cases hf : f fd with
    | some w =>
      rw [hd]
      refine Dict.get?_of_mem hnd (List.mem_flatMap.2 ⟨fd, hfd, ?_⟩)
      rw [hf]; simp [entryOf]
    | none =>
      rw [Dict.get?_eq_none]
      intro hk
      obtain ⟨kv, hkv, hke⟩ := List.mem_map.1 hk
      rw [hd] at hkv
      obtain ⟨fd', hfd', he⟩ := List.mem_flatMap.1 hkv
      cases hf' : f fd' with
      | none => rw [hf'] at he; cases he
      | some w =>
        rw [hf'] at he
        simp only [entryOf, List.mem_singleton] at he
        subst he
        simp only [Key.str.injEq] at hke
        have : fd' = fd := by
          have hinj := hext
          unfold DistinctExt at hinj
          have key : ∀ (l : List FieldDef), (l.map (·.extName)).Nodup → fd' ∈ l → fd ∈ l → fd' = fd := by
            intro l
            induction l with
            | nil => simp
            | cons a l ih =>
              intro hn ha hb
              simp only [List.map_cons, List.nodup_cons] at hn
              rcases List.mem_cons.1 ha with h1 | ha <;> rcases List.mem_cons.1 hb with h2 | hb
              · rw [h1, h2]
              · exact absurd (List.mem_map.2 ⟨_, hb, by rw [← hke, h1]⟩) hn.1
              · exact absurd (List.mem_map.2 ⟨_, ha, by rw [hke, h2]⟩) hn.1
              · exact ih hn.2 ha hb
          exact key _ hinj hfd' hfd
        subst this
        rw [hf] at hf'; cases hf'
  have huniq : ∀ l', LevelOf ctx c fd l' → l' = l := by
    intro l' hl'
    rw [levelOf_iff] at hl hl'; rw [← hl, ← hl']
  rcases exportField_cases (h2 fd hfd) with ⟨ho, hp⟩ | ⟨hp, ho, hdr⟩ | ⟨hp, l', w, hl', hne, hw, hsh⟩
  · exact ⟨fun _ => by rw [hget, ho], fun _ => by rw [hget, ho], fun h => absurd h hp⟩
  · exact ⟨fun h => absurd hp h, fun _ => by rw [hget, ho], fun _ hne => absurd (huniq _ hdr).symm hne⟩
  · have := huniq _ hl'
    subst this
    refine ⟨fun h => absurd hp h, fun h => absurd h hne, fun _ _ => ⟨w, ?_, ?_, ?_⟩⟩
    · cases he : (src.read fd).isEmpty with
      | true => rw [he] at hw; simp only [if_true, Except.ok.injEq] at hw; exact Or.inl ⟨rfl, hw.symm⟩
      | false => rw [he] at hw; simp only [Bool.false_eq_true, if_false] at hw; exact Or.inr ⟨rfl, hw⟩
    · intro hs
      rcases hsh with ⟨_, ho⟩ | ⟨hn, _⟩
      · rw [hget, ho]; rfl
      · exact absurd hs hn
    · intro hs
      rcases hsh with ⟨hn, _⟩ | ⟨_, ho⟩
      · exact absurd hn hs
      · rw [hget, ho]

/-- **C25.** An unknown (non-empty) role name raises `ValueError` iff errors are enabled;
otherwise the fields let through are those of the role in force. -/
theorem C25_role_lookup (env : Env) (n : Nat) (ctx : ECtx) (c : ClassDef) (src : Src) :
    (RoleError ctx c → runExport env n ctx c src = .error (.other "ValueError")) ∧
    (¬ RoleError ctx c → ∃ flt, RoleInForce ctx c flt ∧
      ∀ d, runExport env n ctx c src = .ok d → ∀ kv ∈ d,
        ∃ fd ∈ c.fields, kv.1 = .str fd.extName ∧ Passes flt src fd) := by
  rcases roleFilter_spec ctx c with ⟨h1, h2⟩ | ⟨h1, flt, h2, h3⟩
  · exact ⟨fun _ => by unfold runExport exportLoop; rw [h2], fun h => absurd h1 h⟩
  · refine ⟨fun h => absurd h h1, fun _ => ⟨flt, h3, fun d hd kv hkv => ?_⟩⟩
    obtain ⟨flt', fd, hf, hfd, hk, he⟩ := exportLoop_mem hd hkv
    rw [h2] at hf; injection hf with hf; subst hf
    exact ⟨fd, hfd, hk, (exportField_some he).1⟩

/-- **C23** (one model). With a whitelist in force - by name, as a callable, or as the
default role - every exported key is the external name of a whitelisted field. -/
theorem C23_whitelist_never_leaks (env : Env) (n : Nat) (ctx : ECtx) (c : ClassDef) (src : Src) (d : Data)
    (names : List String) (hrole : RoleInForce ctx c (some (Role.fn ⟨.white, names⟩)))
    (h : runExport env n ctx c src = .ok d) (k : Key) (hk : k ∈ d.keys) :
    ∃ fd ∈ c.fields, k = .str fd.extName ∧ fd.name ∈ names := by
  obtain ⟨kv, hkv, rfl⟩ := List.mem_map.1 hk
  obtain ⟨flt, fd, hf, hfd, hke, he⟩ := exportLoop_mem h hkv
  have : flt = some (Role.fn ⟨.white, names⟩) := by
    rcases roleFilter_spec ctx c with ⟨_, hr⟩ | ⟨_, g, hg, hin⟩
    · rw [hr] at hf; cases hf
    · rw [hf] at hg; injection hg with hg; subst hg; exact roleInForce_unique hin hrole
  refine ⟨fd, hfd, hke, ?_⟩
  have hp := (exportField_some he).1 _ this
  unfold Role.fn Role.skip at hp
  simp only [] at hp
  split at hp
  · simpa using hp
  · cases hp

/-- **C24.** Exporting with a blacklist in force is the same run - result or exception - as
exporting, with everything allowed, the model without the listed fields. -/
theorem C24_blacklist_removes_exactly (env : Env) (n : Nat) (ctx : ECtx) (c : ClassDef) (src : Src)
    (r : String) (hr : ctx.role = some (.name r)) (names : List String)
    (hrole : Dict.get? c.roles r = some (Role.fn ⟨.black, names⟩)) :
    runExport env n ctx c src =
      runExport env n ctx { c with fields := c.fields.filter (fun fd => fd.name ∉ names)
                                   roles := [(r, Role.fn ⟨.whole, []⟩)] } src := by
  unfold runExport exportLoop
  have h1 : roleFilter ctx c = some (some (Role.fn ⟨.black, names⟩)) := by
    unfold roleFilter; rw [hr]; simp only [hrole]
  have h2 : roleFilter ctx { c with fields := c.fields.filter (fun fd => fd.name ∉ names)
                                    roles := [(r, Role.fn ⟨.whole, []⟩)] } =
      some (some (Role.fn ⟨.whole, []⟩)) := by
    unfold roleFilter; rw [hr]; simp [Dict.get?]
  rw [h1, h2]
  simp only []
  generalize ([] : Data) = d
  have hskip : ∀ fd : FieldDef, skipped (some (Role.fn ⟨.black, names⟩)) fd.name (src.read fd) = true ↔ fd.name ∈ names := by
    intro fd
    simp only [skipped, Role.fn, Role.skip]
    cases names <;> simp
  have hwhole : ∀ fd : FieldDef, skipped (some (Role.fn ⟨.whole, []⟩)) fd.name (src.read fd) = false := by
    intro fd; rfl
  induction c.fields generalizing d with
  | nil => rfl
  | cons fd fds ih =>
    simp only [exportFields, List.filter_cons]
    by_cases hm : fd.name ∈ names
    · have : exportField (fieldExport env ctx n) ctx c.exportLevel (some (Role.fn ⟨.black, names⟩)) src fd = .ok none := by
        unfold exportField; simp only []; rw [if_pos ((hskip fd).2 hm)]
      rw [this]
      simp only [hm, not_true_eq_false, decide_false, Bool.false_eq_true, if_false]
      exact ih d
    · have : exportField (fieldExport env ctx n) ctx c.exportLevel (some (Role.fn ⟨.black, names⟩)) src fd =
          exportField (fieldExport env ctx n) ctx c.exportLevel (some (Role.fn ⟨.whole, []⟩)) src fd := by
        unfold exportField; simp only []
        rw [if_neg (fun h => hm ((hskip fd).1 h)), hwhole]
        rfl
      rw [this]
      simp only [hm, not_false_eq_true, decide_true, if_true, exportFields]
      split
      · rfl
      · exact ih d
      · exact ih _

/-! ## The hypotheses are met -/

/-- `order.to_primitive()` of the sample: the default role hides `note`. -/
theorem Samples.export_good : runExport Samples.env 5 {} Samples.order (.inst Samples.goodData) = .ok
    [(.str "id", .int 7),
     (.str "items", .list [.dict [(.str "qty", .int 1), (.str "label", .str "a")],
        .dict [(.str "qty", .int 2), (.str "label", .none)]]),
     (.str "prices", .dict [(.str "x", .int 3)]),
     (.str "parent", .dict [(.str "id", .int 6), (.str "items", .none), (.str "prices", .none), (.str "parent", .none)])] := by
  rfl
/-- `order.to_primitive(role='public')` of the sample. -/
theorem Samples.export_public : runExport Samples.env 5 { role := some (.name "public"), raiseOnRole := false } Samples.order
    (.inst Samples.goodData) = .ok
    [(.str "id", .int 7),
     (.str "items", .list [.dict [(.str "qty", .int 1), (.str "label", .str "a")],
        .dict [(.str "qty", .int 2), (.str "label", .none)]])] := by
  rfl
theorem Samples.order_distinct : DistinctExt Samples.order := by unfold DistinctExt; decide
theorem Samples.item_distinct : DistinctExt Samples.item := by unfold DistinctExt; decide

example := C30_export_in_field_order _ _ _ _ _ _ Samples.export_good
example := (C30_export_succeeds Samples.env 5 {} Samples.order (.inst Samples.goodData)).1 ⟨_, Samples.export_good⟩
example := C27_levels_decide_presence _ _ _ _ _ _ Samples.order_distinct Samples.export_good _ (.absent rfl)
  { name := "note", field := .mk (.leaf Samples.strLeaf) { default := .str "-" } } (by simp [Samples.order]) _ (.model rfl rfl)
/-- A role unknown to the nested class is an error. -/
example : runExport Samples.env 5 { role := some (.name "public") } Samples.item (.inst []) = .error (.other "ValueError") :=
  (C25_role_lookup _ _ _ _ _).1 ⟨rfl, "public", by decide, rfl, rfl⟩
example := (C25_role_lookup Samples.env 5 {} Samples.order (.inst Samples.goodData)).2 (by rintro ⟨_, r, _, h, _⟩; cases h)
example := C23_whitelist_never_leaks _ _ _ _ _ _ ["id", "items", "qty"] (.named rfl rfl) Samples.export_public
example := C24_blacklist_removes_exactly Samples.env 5 { role := some (.name "default") } Samples.order
  (.inst Samples.goodData) "default" rfl ["note"] rfl

end Verif
