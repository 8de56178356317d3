import Verif.Core.Converter
import Verif.Core.ExportLemmas
import Verif.Props.Export
import Verif.Props.ExportTermination

/-!
# C95: custom field converters
-/
namespace Verif

/-! ## The standard converters -/

/-- The values of compound fields have a length. -/
def Sized (rec : ERec) : Prop := ∀ owner f v w, rec owner f v = .ok w → f.ty.isCompound = true → sized w = some (pyLen w)

theorem hiddenX_of {f : Field} {w : Val} (h : w.isEmpty = true ∨ f.ty.isCompound = true → sized w = some (pyLen w) ∨ w.isEmpty = true) (l : Nat) :
    hiddenX l f w = .ok (hidden l f w) := by
  unfold hiddenX hidden
  by_cases h1 : w.isUndef = true
  · rw [if_pos h1, if_pos h1]
  · rw [if_neg h1, if_neg h1]
    by_cases h2 : w.isEmpty = true
    · rw [if_pos h2, if_pos h2]
    · rw [if_neg h2, if_neg h2]
      unfold emptyCompound
      by_cases h3 : f.ty.isCompound = true
      · rw [if_pos h3, ((h (.inr h3)).resolve_right h2), h3]
        by_cases hb : pyLen w = 0 <;> simp [hb]
      · rw [if_neg h3]
        rw [Bool.not_eq_true] at h3
        simp [h3]

theorem hiddenItemX_of {f : Field} {w : Val} (h : f.ty.isCompound = true → sized w = some (pyLen w)) (l : Nat) :
    hiddenItemX l f w = .ok (hiddenItem l f w) := by
  by_cases hw : w = .none
  · subst hw; rfl
  · have e1 : hiddenItemX l f w = if f.ty.isCompound then (match sized w with | none => .error (.other "TypeError") | some n => .ok (n == 0 && l ≤ NONEMPTY)) else .ok false := by
      cases w <;> first | rfl | exact absurd rfl hw
    have e2 : hiddenItem l f w = (emptyCompound f w && decide (l ≤ NONEMPTY)) := by
      cases w <;> first | rfl | exact absurd rfl hw
    rw [e1, e2, emptyCompound]
    by_cases h3 : f.ty.isCompound = true
    · rw [if_pos h3, h h3, h3]; simp
    · rw [if_neg h3]
      rw [Bool.not_eq_true] at h3
      simp [h3]

theorem exportModel_sized {rec : ERec} {ctx : ECtx} {c : ClassDef} {src : Src} {w : Val} (h : exportModel rec ctx c src = .ok w) : sized w = some (pyLen w) := by
  unfold exportModel at h
  cases hx : exportLoop rec ctx c src with
  | error e => rw [hx] at h; cases h
  | ok d => rw [hx] at h; cases h; rfl

theorem nested_exportF (rec : ERec) (env : Env) (ctx : ECtx) (owner : Nat) (f : Field) (v : Val) (hf : (∃ c, f.ty = .model c) ∨ ∃ p, f.ty = .poly p) :
    exportF rec env ctx owner f v = (match nested env f.ty v with | .error e => .error e | .ok (c, src) => exportModel rec ctx c src) := by
  rcases hf with ⟨cls, h⟩ | ⟨p, h⟩
  · unfold exportF nested
    rw [h]
    dsimp only
    split
    · split <;> simp_all
    · split <;> simp_all
    · split <;> simp_all
  · unfold exportF nested
    rw [h]
    dsimp only
    split
    · cases v <;> dsimp only
      split <;> simp_all
    · rfl

theorem fieldExport_sized (env : Env) (ctx : ECtx) (n : Nat) : Sized (fieldExport env ctx n) := by
  intro owner f v w h hc
  cases n with
  | zero => cases h
  | succ n =>
    rw [fieldExport] at h
    cases ht : f.ty with
    | leaf l => rw [ht] at hc; cases hc
    | list inner mn mx =>
      unfold exportF at h
      rw [ht] at h
      dsimp only at h
      split at h
      · cases h; rfl
      · split at h
        · cases h
        · split at h
          · cases h
          · cases h; rfl
    | dict inner k =>
      unfold exportF at h
      rw [ht] at h
      dsimp only at h
      split at h
      · cases h; rfl
      · split at h
        · cases h
        · split at h
          · cases h
          · cases h; rfl
    | model cls =>
      rw [nested_exportF _ _ _ _ _ _ (.inl ⟨cls, ht⟩)] at h
      split at h
      · cases h
      · exact exportModel_sized h
    | poly p =>
      rw [nested_exportF _ _ _ _ _ _ (.inr ⟨p, ht⟩)] at h
      split at h
      · cases h
      · exact exportModel_sized h

/-- A converter that only watches: it exports every field as the standard converter does, and notes what happens. -/
def watching (fmt : Fmt) (onPre : ClassDef → Src → σ → σ) (onCall : ClassDef → FieldDef → Val → σ → σ) (onPost : ClassDef → Data → σ → σ) : Converter σ where
  call ex c fd v := fun s => ex fmt v (onCall c fd v s)
  pre c src := fun s => (.ok src, onPre c src s)
  post c d := fun s => (.ok (.dict d), onPost c d s)

/-- The result of a computation does not depend on the state. -/
def Res (m : St σ α) (r : R α) : Prop := ∀ s, (m s).1 = r

/-- Sequence of results. -/
def R.andThen (r : R α) (k : α → R β) : R β :=
  match r with
  | .error e => .error e
  | .ok a => k a

theorem Res.pure (r : R α) : Res (St.pure r : St σ α) r := fun _ => rfl

theorem Res.bind {m : St σ α} {r : R α} {k : α → St σ β} {r' : α → R β} (h : Res m r) (hk : ∀ a, r = .ok a → Res (k a) (r' a)) : Res (St.bind m k) (R.andThen r r') := by
  intro s
  have h1 := h s
  unfold St.bind
  rcases hm : m s with ⟨x, s'⟩
  rw [hm] at h1
  cases h1
  cases x with
  | error e => rfl
  | ok a => exact hk a rfl s'

theorem Res.of_eq {m : St σ α} {r r' : R α} (h : Res m r) (e : r = r') : Res m r' := e ▸ h

section watching
variable {fmt : Fmt} {onPre : ClassDef → Src → σ → σ} {onCall : ClassDef → FieldDef → Val → σ → σ} {onPost : ClassDef → Data → σ → σ} {ctx : ECtx} {rec : ERec} {recX : XRec σ}

theorem exportFieldX_res (hrec : ∀ owner f v, Res (recX fmt owner f v) (rec owner f v)) (hs : Sized rec) (c : ClassDef) (flt : Option RoleFn) (src : Src) (fd : FieldDef) :
    Res (exportFieldX (watching fmt onPre onCall onPost) recX ctx c flt src fd) (exportField rec { ctx with fmt := fmt } c.exportLevel flt src fd) := by
  unfold exportFieldX exportField
  dsimp only
  have hl : exportLevelOf { ctx with fmt := fmt } c.exportLevel fd.field = exportLevelOf ctx c.exportLevel fd.field := rfl
  rw [hl]
  by_cases h1 : skipped flt fd.name (src.read fd) = true
  · rw [if_pos h1, if_pos h1]; exact Res.pure _
  · rw [if_neg h1, if_neg h1]
    by_cases h2 : exportLevelOf ctx c.exportLevel fd.field = DROP
    · rw [if_pos h2, if_pos h2]; exact Res.pure _
    · rw [if_neg h2, if_neg h2]
      have hk : ∀ w, sized w = some (pyLen w) ∨ w.isEmpty = true ∨ fd.field.ty.isCompound = false →
          keepX (exportLevelOf ctx c.exportLevel fd.field) fd.field w =
            if hidden (exportLevelOf ctx c.exportLevel fd.field) fd.field w then .ok none else .ok (some (nullify w)) := by
        intro w hw
        unfold keepX
        rw [hiddenX_of]
        · cases hidden (exportLevelOf ctx c.exportLevel fd.field) fd.field w <;> rfl
        · rintro (h | h)
          · exact .inr h
          · rcases hw with hw | hw | hw
            · exact .inl hw
            · exact .inr hw
            · rw [hw] at h; cases h
      by_cases h3 : (src.read fd).isEmpty = true
      · rw [if_pos h3, if_pos h3]
        refine (Res.bind (r := .ok (src.read fd)) (Res.pure _) (fun a ha => Res.pure _)).of_eq ?_
        exact hk _ (.inr (.inl h3))
      · rw [if_neg h3, if_neg h3]
        refine (Res.bind (r := rec c.exportLevel fd.field (src.read fd)) (fun s => hrec _ _ _ _) (fun a ha => Res.pure _)).of_eq ?_
        cases hr : rec c.exportLevel fd.field (src.read fd) with
        | error e => rfl
        | ok w =>
          refine hk w ?_
          cases hc : fd.field.ty.isCompound with
          | true => exact .inl (hs _ _ _ _ hr hc)
          | false => exact .inr (.inr rfl)

theorem exportFieldsX_res (hrec : ∀ owner f v, Res (recX fmt owner f v) (rec owner f v)) (hs : Sized rec) (c : ClassDef) (flt : Option RoleFn) (src : Src) :
    ∀ (fds : List FieldDef) (d : Data),
    Res (exportFieldsX (watching fmt onPre onCall onPost) recX ctx c flt src fds d) (exportFields rec { ctx with fmt := fmt } c.exportLevel flt src fds d) := by
  intro fds
  induction fds with
  | nil => intro d; exact Res.pure _
  | cons fd fds ih =>
    intro d
    refine (Res.bind (exportFieldX_res hrec hs c flt src fd) (fun o _ => ih (putX fd d o))).of_eq ?_
    rw [exportFields]
    cases exportField rec { ctx with fmt := fmt } c.exportLevel flt src fd with
    | error e => rfl
    | ok o => cases o <;> rfl

theorem exportBodyX_res (hrec : ∀ owner f v, Res (recX fmt owner f v) (rec owner f v)) (hs : Sized rec) (c : ClassDef) (src : Src) :
    Res (exportBodyX (watching fmt onPre onCall onPost) recX ctx c src) (exportLoop rec { ctx with fmt := fmt } c src) := by
  have hr : roleFilter { ctx with fmt := fmt } c = roleFilter ctx c := rfl
  unfold exportBodyX exportLoop
  rw [hr]
  cases roleFilter ctx c with
  | none => exact Res.pure _
  | some flt => exact exportFieldsX_res hrec hs c flt src c.fields []

theorem exportLoopX_res (hrec : ∀ owner f v, Res (recX fmt owner f v) (rec owner f v)) (hs : Sized rec) (c : ClassDef) (src : Src) :
    Res (exportLoopX (watching fmt onPre onCall onPost) recX ctx c src) (exportModel rec { ctx with fmt := fmt } c src) := by
  unfold exportLoopX
  refine (Res.bind (r := .ok src) (fun _ => rfl) (fun src' hsrc => ?_)).of_eq (r' := exportModel rec { ctx with fmt := fmt } c src) (r := R.andThen (.ok src) fun src => exportModel rec { ctx with fmt := fmt } c src) rfl
  refine (Res.bind (exportBodyX_res hrec hs c src') (r' := fun d => .ok (.dict d)) (fun d _ _ => rfl)).of_eq ?_
  unfold exportModel
  cases exportLoop rec { ctx with fmt := fmt } c src' <;> rfl

theorem exportItemsX_res {f : Val → St σ Val} {g : Val → R Val} {hx : Val → R Bool} {hd : Val → Bool} (hf : ∀ v, Res (f v) (g v))
    (hh : ∀ v w, g v = .ok w → hx w = .ok (hd w)) : ∀ xs, Res (exportItemsX f hx xs) (exportItems g hd xs)
  | [] => Res.pure _
  | x :: xs => by
    refine (Res.bind (hf x) (fun y _ => Res.bind (Res.pure (hx y)) (fun h _ => Res.bind (exportItemsX_res hf hh xs) (fun ys _ => Res.pure _)))).of_eq ?_
    rw [exportItems]
    cases hg : g x with
    | error e => rfl
    | ok y =>
      simp only [R.andThen, hh x y hg]
      cases exportItems g hd xs with
      | error e => rfl
      | ok ys => dsimp only; split <;> rfl

theorem exportPairsX_res {f : Val → St σ Val} {g : Val → R Val} {hx : Val → R Bool} {hd : Val → Bool} (hf : ∀ v, Res (f v) (g v))
    (hh : ∀ v w, g v = .ok w → hx w = .ok (hd w)) : ∀ xs, Res (exportPairsX f hx xs) (exportPairs g hd xs)
  | [] => Res.pure _
  | (k, x) :: xs => by
    refine (Res.bind (hf x) (fun y _ => Res.bind (Res.pure (hx y)) (fun h _ => Res.bind (exportPairsX_res hf hh xs) (fun ys _ => Res.pure _)))).of_eq ?_
    rw [exportPairs]
    cases hg : g x with
    | error e => rfl
    | ok y =>
      simp only [R.andThen, hh x y hg]
      cases exportPairs g hd xs with
      | error e => rfl
      | ok ys => dsimp only; split <;> rfl

theorem exportFX_res (env : Env) (hrec : ∀ owner f v, Res (recX fmt owner f v) (rec owner f v)) (hs : Sized rec) (owner : Nat) (f : Field) (v : Val) :
    Res (exportFX (watching fmt onPre onCall onPost) recX env ctx fmt owner f v) (exportF rec env { ctx with fmt := fmt } owner f v) := by
  cases ht : f.ty with
  | leaf l =>
    unfold exportFX exportF
    rw [ht]
    cases fmt <;> exact Res.pure _
  | list inner mn mx =>
    unfold exportFX exportF
    rw [ht]
    have hl : exportLevelOf { ctx with fmt := fmt } owner inner = exportLevelOf ctx owner inner := rfl
    dsimp only
    rw [hl]
    by_cases h : exportLevelOf ctx owner inner = DROP
    · rw [if_pos h, if_pos h]; exact Res.pure _
    · rw [if_neg h, if_neg h]
      cases iterItems env v with
      | none => exact Res.pure _
      | some xs =>
        refine (Res.bind (exportItemsX_res (hrec owner inner) (fun v w hw => hiddenItemX_of (hs _ _ _ _ hw) _) xs) (fun ys _ => Res.pure _)).of_eq ?_
        dsimp only
        cases exportItems (rec owner inner) (hiddenItem (exportLevelOf ctx owner inner) inner) xs <;> rfl
  | dict inner k =>
    unfold exportFX exportF
    rw [ht]
    have hl : exportLevelOf { ctx with fmt := fmt } owner inner = exportLevelOf ctx owner inner := rfl
    dsimp only
    rw [hl]
    by_cases h : exportLevelOf ctx owner inner = DROP
    · rw [if_pos h, if_pos h]; exact Res.pure _
    · rw [if_neg h, if_neg h]
      cases iterPairs env v with
      | none => exact Res.pure _
      | some xs =>
        refine (Res.bind (exportPairsX_res (hrec owner inner) (fun v w hw => hiddenItemX_of (hs _ _ _ _ hw) _) xs) (fun ys _ => Res.pure _)).of_eq ?_
        dsimp only
        cases exportPairs (rec owner inner) (hiddenItem (exportLevelOf ctx owner inner) inner) xs <;> rfl
  | model cls =>
    rw [nested_exportF _ _ _ _ _ _ (.inl ⟨cls, ht⟩)]
    unfold exportFX
    rw [ht]
    dsimp only
    cases nested env (.model cls) v with
    | error e => exact Res.pure _
    | ok q => exact exportLoopX_res hrec hs q.1 q.2
  | poly p =>
    rw [nested_exportF _ _ _ _ _ _ (.inr ⟨p, ht⟩)]
    unfold exportFX
    rw [ht]
    dsimp only
    cases nested env (.poly p) v with
    | error e => exact Res.pure _
    | ok q => exact exportLoopX_res hrec hs q.1 q.2

theorem fieldExportX_res (env : Env) : ∀ (n : Nat) (owner : Nat) (f : Field) (v : Val),
    Res (fieldExportX (watching fmt onPre onCall onPost) env ctx n fmt owner f v) (fieldExport env { ctx with fmt := fmt } n owner f v)
  | 0, _, _, _ => Res.pure _
  | n + 1, owner, f, v => exportFX_res env (fieldExportX_res env n) (fieldExport_sized env _ n) owner f v

/-- **C95, watching converters**: a converter that exports every field as usual and only takes notes gives the same result, or raises the same exception, as `to_native` or
`to_primitive`. -/
theorem C95_watching (env : Env) (n : Nat) (c : ClassDef) (src : Src) (s : σ) :
    (runExportX (watching fmt onPre onCall onPost) env n ctx c src s).1 = (match runExport env n { ctx with fmt := fmt } c src with
      | .error e => .error e
      | .ok d => .ok (.dict d)) :=
  exportLoopX_res (fieldExportX_res env n) (fieldExport_sized env _ n) c src s

end watching

/-- **C95, standard converters**: `export` with `to_native_converter` or `to_primitive_converter` is `to_native` or `to_primitive`. -/
theorem C95_standard (fmt : Fmt) (env : Env) (n : Nat) (ctx : ECtx) (c : ClassDef) (src : Src) (s : σ) :
    (runExportX (.standard fmt) env n ctx c src s).1 = (match runExport env n { ctx with fmt := fmt } c src with
      | .error e => .error e
      | .ok d => .ok (.dict d)) :=
  C95_watching (onPre := fun _ _ s => s) (onCall := fun _ _ _ s => s) (onPost := fun _ _ s => s) env n c src s

/-! ## Which fields a converter gets -/

/-- The field may be converted: it belongs to the class, the role in force lets it through, its level is not `DROP`, and it has a value. -/
structure Convertible (ctx : ECtx) (c : ClassDef) (fd : FieldDef) (v : Val) : Prop where
  field : fd ∈ c.fields
  role : ¬ RoleError ctx c ∧ ∃ flt, RoleInForce ctx c flt ∧ ∀ g, flt = some g → g fd.name v = false
  level : ∀ l, LevelOf ctx c fd l → l ≠ DROP
  value : v ≠ .none ∧ v ≠ .undef

theorem skipped_iff {flt : Option RoleFn} {name : String} {v : Val} : skipped flt name v = false ↔ ∀ g, flt = some g → g name v = false := by
  cases flt with
  | none => simp [skipped]
  | some g => simp [skipped]

theorem convertible_iff {ctx : ECtx} {c : ClassDef} {fd : FieldDef} {v : Val} {flt : Option RoleFn} (hflt : roleFilter ctx c = some flt) :
    Convertible ctx c fd v ↔ fd ∈ c.fields ∧ skipped flt fd.name v = false ∧ exportLevelOf ctx c.exportLevel fd.field ≠ DROP ∧ v.isEmpty = false := by
  have hval : (v ≠ .none ∧ v ≠ .undef) ↔ v.isEmpty = false := by cases v <;> simp [Val.isEmpty]
  rcases roleFilter_spec ctx c with ⟨_, hr⟩ | ⟨hne, g, hg, hin⟩
  · rw [hr] at hflt; cases hflt
  · rw [hflt] at hg; cases hg
    constructor
    · intro h
      obtain ⟨flt', h1, h2⟩ := h.role.2
      cases roleInForce_unique h1 hin
      exact ⟨h.field, skipped_iff.2 h2, h.level _ ((levelOf_iff ..).2 rfl), hval.1 h.value⟩
    · rintro ⟨h1, h2, h3, h4⟩
      exact ⟨h1, ⟨hne, _, hin, skipped_iff.1 h2⟩, fun l hl => by rw [← (levelOf_iff ..).1 hl]; exact h3, hval.2 h4⟩

theorem not_convertible {ctx : ECtx} {c : ClassDef} {fd : FieldDef} {v : Val} (hflt : roleFilter ctx c = none) : ¬ Convertible ctx c fd v := by
  intro h
  rcases roleFilter_spec ctx c with ⟨he, _⟩ | ⟨_, g, hg, _⟩
  · exact h.role.1 he
  · rw [hflt] at hg; cases hg

/-- The computation preserves a property of the state. -/
def Keeps (I : σ → Prop) (m : St σ α) : Prop := ∀ s, I s → I (m s).2

theorem Keeps.pure {I : σ → Prop} (r : R α) : Keeps I (St.pure r : St σ α) := fun _ h => h

theorem Keeps.bind {I : σ → Prop} {m : St σ α} {k : α → St σ β} (h : Keeps I m) (hk : ∀ a, Keeps I (k a)) : Keeps I (St.bind m k) := by
  intro s hs
  have h1 := h s hs
  unfold St.bind
  rcases hm : m s with ⟨x, s'⟩
  rw [hm] at h1
  cases x with
  | error e => exact h1
  | ok a => exact hk a s' h1

section keeps
variable {I : σ → Prop} {cv : Converter σ} {ctx : ECtx} {recX : XRec σ}

theorem exportFieldsX_keeps
    (hcall : ∀ ex c fd v, (∀ fmt v, Keeps I (ex fmt v)) → Convertible ctx c fd v → Keeps I (cv.call ex c fd v))
    (hrec : ∀ fmt owner f v, Keeps I (recX fmt owner f v)) (c : ClassDef) (flt : Option RoleFn) (hflt : roleFilter ctx c = some flt) (src : Src) :
    ∀ (fds : List FieldDef), (∀ fd ∈ fds, fd ∈ c.fields) → ∀ d, Keeps I (exportFieldsX cv recX ctx c flt src fds d) := by
  intro fds
  induction fds with
  | nil => intro _ d; exact Keeps.pure _
  | cons fd fds ih =>
    intro hm d
    refine Keeps.bind ?_ (fun o => ih (fun g hg => hm g (List.mem_cons_of_mem _ hg)) _)
    unfold exportFieldX
    by_cases h1 : skipped flt fd.name (src.read fd) = true
    · rw [if_pos h1]; exact Keeps.pure _
    · rw [if_neg h1]
      by_cases h2 : exportLevelOf ctx c.exportLevel fd.field = DROP
      · rw [if_pos h2]; exact Keeps.pure _
      · rw [if_neg h2]
        refine Keeps.bind ?_ (fun _ => Keeps.pure _)
        by_cases h3 : (src.read fd).isEmpty = true
        · rw [if_pos h3]; exact Keeps.pure _
        · rw [if_neg h3]
          exact hcall _ _ _ _ (fun fmt v => hrec fmt _ _ v)
            ((convertible_iff hflt).2 ⟨hm fd (List.mem_cons_self ..), by simpa using h1, h2, by simpa using h3⟩)

theorem exportLoopX_keeps (hpre : ∀ c src, Keeps I (cv.pre c src)) (hpost : ∀ c d, Keeps I (cv.post c d))
    (hcall : ∀ ex c fd v, (∀ fmt v, Keeps I (ex fmt v)) → Convertible ctx c fd v → Keeps I (cv.call ex c fd v))
    (hrec : ∀ fmt owner f v, Keeps I (recX fmt owner f v)) (c : ClassDef) (src : Src) : Keeps I (exportLoopX cv recX ctx c src) := by
  refine Keeps.bind (hpre c src) fun src => Keeps.bind ?_ (hpost c)
  unfold exportBodyX
  cases h : roleFilter ctx c with
  | none => exact Keeps.pure _
  | some flt => exact exportFieldsX_keeps hcall hrec c flt h src c.fields (fun _ h => h) []

theorem exportItemsX_keeps {f : Val → St σ Val} {hx : Val → R Bool} (hf : ∀ v, Keeps I (f v)) : ∀ xs, Keeps I (exportItemsX f hx xs)
  | [] => Keeps.pure _
  | x :: xs => Keeps.bind (hf x) fun _ => Keeps.bind (Keeps.pure _) fun _ => Keeps.bind (exportItemsX_keeps hf xs) fun _ => Keeps.pure _

theorem exportPairsX_keeps {f : Val → St σ Val} {hx : Val → R Bool} (hf : ∀ v, Keeps I (f v)) : ∀ xs, Keeps I (exportPairsX f hx xs)
  | [] => Keeps.pure _
  | (_, x) :: xs => Keeps.bind (hf x) fun _ => Keeps.bind (Keeps.pure _) fun _ => Keeps.bind (exportPairsX_keeps hf xs) fun _ => Keeps.pure _

theorem fieldExportX_keeps (env : Env) (hpre : ∀ c src, Keeps I (cv.pre c src)) (hpost : ∀ c d, Keeps I (cv.post c d))
    (hcall : ∀ ex c fd v, (∀ fmt v, Keeps I (ex fmt v)) → Convertible ctx c fd v → Keeps I (cv.call ex c fd v)) :
    ∀ (n : Nat) (fmt : Fmt) (owner : Nat) (f : Field) (v : Val), Keeps I (fieldExportX cv env ctx n fmt owner f v) := by
  intro n
  induction n with
  | zero => intro _ _ _ _; exact Keeps.pure _
  | succ n ih =>
    intro fmt owner f v
    have hnest : ∀ q, Keeps I (nestedX cv (fieldExportX cv env ctx n) ctx q) := by
      intro q
      cases q with
      | error e => exact Keeps.pure _
      | ok q => exact exportLoopX_keeps hpre hpost hcall ih q.1 q.2
    rw [fieldExportX]
    unfold exportFX
    cases ht : f.ty with
    | leaf l => exact Keeps.pure _
    | list inner mn mx =>
      dsimp only
      split
      · exact Keeps.pure _
      · cases iterItems env v with
        | none => exact Keeps.pure _
        | some xs => exact Keeps.bind (exportItemsX_keeps (ih fmt owner inner) xs) fun _ => Keeps.pure _
    | dict inner k =>
      dsimp only
      split
      · exact Keeps.pure _
      · cases iterPairs env v with
        | none => exact Keeps.pure _
        | some xs => exact Keeps.bind (exportPairsX_keeps (ih fmt owner inner) xs) fun _ => Keeps.pure _
    | model cls => exact hnest _
    | poly p => exact hnest _

/-- **C95, a converter gets permitted fields only**, at every depth and whatever it does: every property of the caller's state that `pre`, `post` and the calls for *permitted*
fields preserve is preserved by the export.  In particular (take "no call for a forbidden field was noted") a converter is never called with a field that a role hides, that is
dropped, or that has no value. -/
theorem C95_only_permitted (env : Env) (n : Nat) (c : ClassDef) (src : Src) (hpre : ∀ c src, Keeps I (cv.pre c src)) (hpost : ∀ c d, Keeps I (cv.post c d))
    (hcall : ∀ ex c fd v, (∀ fmt v, Keeps I (ex fmt v)) → Convertible ctx c fd v → Keeps I (cv.call ex c fd v)) (s : σ) (hs : I s) :
    I (runExportX cv env n ctx c src s).2 :=
  exportLoopX_keeps hpre hpost hcall (fieldExportX_keeps env hpre hpost hcall n) c src s hs

end keeps

/-! ## What happens during an export -/

/-- Something that a converter is asked to do. -/
inductive Ev
  | pre (c : ClassDef) (src : Src)
  | call (c : ClassDef) (fd : FieldDef) (v : Val)
  | post (c : ClassDef) (d : Data)

/-- The standard converter, writing down what happens. -/
def logging (fmt : Fmt) : Converter (List Ev) :=
  watching fmt (fun c src s => s ++ [.pre c src]) (fun c fd v s => s ++ [.call c fd v]) (fun c d s => s ++ [.post c d])

/-- A value of a type contains a model, directly or as an element of lists and dicts, that is exported with it. -/
inductive Contains (env : Env) (ctx : ECtx) (owner : Nat) : Field → Val → ClassDef → Src → Prop
  | model {f : Field} {v : Val} {cls : String} {c : ClassDef} {src : Src} (h : f.ty = .model cls) (hn : nested env (.model cls) v = .ok (c, src)) : Contains env ctx owner f v c src
  | poly {f : Field} {v : Val} {p : PolySpec} {c : ClassDef} {src : Src} (h : f.ty = .poly p) (hn : nested env (.poly p) v = .ok (c, src)) : Contains env ctx owner f v c src
  | item {f inner : Field} {mn mx : Option Nat} {v x : Val} {xs : List Val} {c : ClassDef} {src : Src} (h : f.ty = .list inner mn mx)
      (hl : exportLevelOf ctx owner inner ≠ DROP) (hi : iterItems env v = some xs) (hx : x ∈ xs) (hc : Contains env ctx owner inner x c src) : Contains env ctx owner f v c src
  | entry {f inner : Field} {k : Key → R Key} {v x : Val} {key : Key} {xs : List (Key × Val)} {c : ClassDef} {src : Src} (h : f.ty = .dict inner k)
      (hl : exportLevelOf ctx owner inner ≠ DROP) (hi : iterPairs env v = some xs) (hx : (key, x) ∈ xs) (hc : Contains env ctx owner inner x c src) : Contains env ctx owner f v c src

/-- Exporting one model involves exporting another one, at any depth. -/
inductive Involves (env : Env) (ctx : ECtx) : ClassDef → Src → ClassDef → Src → Prop
  | here (c : ClassDef) (src : Src) : Involves env ctx c src c src
  | step {c : ClassDef} {src : Src} {fd : FieldDef} {c1 c2 : ClassDef} {src1 src2 : Src} (hp : Convertible ctx c fd (src.read fd))
      (hc : Contains env ctx c.exportLevel fd.field (src.read fd) c1 src1) (hr : Involves env ctx c1 src1 c2 src2) : Involves env ctx c src c2 src2

/-- What happens during the export of a model. -/
def Happens (env : Env) (ctx : ECtx) (c : ClassDef) (src : Src) : Ev → Prop
  | .pre c' src' => Involves env ctx c src c' src'
  | .call c' fd v => ∃ src', Involves env ctx c src c' src' ∧ v = src'.read fd ∧ Convertible ctx c' fd v
  | .post c' d => ∃ src' n, Involves env ctx c src c' src' ∧ runExport env n ctx c' src' = .ok d

/-- The computation appends to the log, and only events `P`; if it succeeds, all of them. -/
def Traced (m : St (List Ev) α) (P : Ev → Prop) : Prop :=
  ∀ s, ∃ T, (m s).2 = s ++ T ∧ (∀ e ∈ T, P e) ∧ ∀ a, (m s).1 = .ok a → ∀ e, P e → e ∈ T

theorem Traced.pure (r : R α) : Traced (St.pure r) (fun _ => False) := fun s => ⟨[], by simp [St.pure], by simp, fun _ _ e h => h.elim⟩

theorem Traced.bind {m : St (List Ev) α} {k : α → St (List Ev) β} {P Q : Ev → Prop} (h : Traced m P) (hk : ∀ s a, (m s).1 = .ok a → Traced (k a) Q) :
    Traced (St.bind m k) (fun e => P e ∨ Q e) := by
  intro s
  obtain ⟨T, h1, h2, h3⟩ := h s
  unfold St.bind
  rcases hm : m s with ⟨x, s'⟩
  rw [hm] at h1 h3
  cases h1
  cases x with
  | error e => exact ⟨T, rfl, fun e he => .inl (h2 e he), nofun⟩
  | ok a =>
    obtain ⟨T', h4, h5, h6⟩ := hk s a (by rw [hm]) (s ++ T)
    refine ⟨T ++ T', ?_, fun e he => ?_, fun b hb e he => ?_⟩
    · rw [← List.append_assoc]; exact h4
    · rcases List.mem_append.1 he with he | he
      · exact .inl (h2 e he)
      · exact .inr (h5 e he)
    · rcases he with he | he
      · exact List.mem_append_left _ (h3 a rfl e he)
      · exact List.mem_append_right _ (h6 b hb e he)

theorem Traced.of_iff {m : St (List Ev) α} {P Q : Ev → Prop} (h : Traced m P) (e : ∀ x, P x ↔ Q x) : Traced m Q :=
  fun s => (h s).imp fun _ hT => ⟨hT.1, fun x hx => (e x).1 (hT.2.1 x hx), fun a ha x hx => hT.2.2 a ha x ((e x).2 hx)⟩

theorem runExport_unique {env : Env} {ctx : ECtx} {c : ClassDef} {src : Src} {n m : Nat} {d d' : Data} (h : runExport env n ctx c src = .ok d)
    (h' : runExport env m ctx c src = .ok d') : d = d' := by
  have e1 := C96_outcome_independent_of_stack env n (max n m) (Nat.le_max_left ..) ctx c src (by rw [h]; exact ends_ok _)
  have e2 := C96_outcome_independent_of_stack env m (max n m) (Nat.le_max_right ..) ctx c src (by rw [h']; exact ends_ok _)
  rw [e1, h, h'] at e2
  cases e2; rfl

/-- What happens for a value of a field. -/
def FieldHappens (env : Env) (ctx : ECtx) (owner : Nat) (f : Field) (v : Val) (e : Ev) : Prop := ∃ c src, Contains env ctx owner f v c src ∧ Happens env ctx c src e

theorem happens_iff {env : Env} {ctx : ECtx} {c : ClassDef} {src : Src} {e : Ev} :
    Happens env ctx c src e ↔ e = .pre c src ∨
      (∃ fd, Convertible ctx c fd (src.read fd) ∧ (e = .call c fd (src.read fd) ∨ FieldHappens env ctx c.exportLevel fd.field (src.read fd) e)) ∨
      ∃ d n, e = .post c d ∧ runExport env n ctx c src = .ok d := by
  constructor
  · intro h
    cases e with
    | pre c' src' =>
      have h : Involves env ctx c src c' src' := h
      cases h with
      | here => exact .inl rfl
      | step hp hc hr => exact .inr (.inl ⟨_, hp, .inr ⟨_, _, hc, hr⟩⟩)
    | call c' fd' v' =>
      obtain ⟨src', h, hv, hp'⟩ : ∃ src', Involves env ctx c src c' src' ∧ v' = src'.read fd' ∧ Convertible ctx c' fd' v' := h
      cases h with
      | here => subst hv; exact .inr (.inl ⟨_, hp', .inl rfl⟩)
      | step hp hc hr => exact .inr (.inl ⟨_, hp, .inr ⟨_, _, hc, ⟨src', hr, hv, hp'⟩⟩⟩)
    | post c' d' =>
      obtain ⟨src', n, h, hr'⟩ : ∃ src' n, Involves env ctx c src c' src' ∧ runExport env n ctx c' src' = .ok d' := h
      cases h with
      | here => exact .inr (.inr ⟨d', n, rfl, hr'⟩)
      | step hp hc hr => exact .inr (.inl ⟨_, hp, .inr ⟨_, _, hc, ⟨src', n, hr, hr'⟩⟩⟩)
  · rintro (rfl | ⟨fd, hp, rfl | ⟨c1, src1, hc, h⟩⟩ | ⟨d, n, rfl, h⟩)
    · exact .here c src
    · exact ⟨src, .here c src, rfl, hp⟩
    · cases e with
      | pre c' src' => exact .step hp hc h
      | call c' fd' v' =>
        obtain ⟨src', h, hv, hp'⟩ : ∃ src', Involves env ctx c1 src1 c' src' ∧ v' = src'.read fd' ∧ Convertible ctx c' fd' v' := h
        exact ⟨src', .step hp hc h, hv, hp'⟩
      | post c' d' =>
        obtain ⟨src', n, h, hr'⟩ : ∃ src' n, Involves env ctx c1 src1 c' src' ∧ runExport env n ctx c' src' = .ok d' := h
        exact ⟨src', n, .step hp hc h, hr'⟩
    · exact ⟨src, n, .here c src, h⟩

section traced
variable {env : Env} {ctx : ECtx} {n : Nat}

theorem exportFieldX_traced {recX : XRec (List Ev)} (hrec : ∀ owner f v, Traced (recX ctx.fmt owner f v) (FieldHappens env ctx owner f v)) (c : ClassDef) (flt : Option RoleFn)
    (hflt : roleFilter ctx c = some flt) (src : Src) (fd : FieldDef) (hfd : fd ∈ c.fields) :
    Traced (exportFieldX (logging ctx.fmt) recX ctx c flt src fd)
      (fun e => Convertible ctx c fd (src.read fd) ∧ (e = .call c fd (src.read fd) ∨ FieldHappens env ctx c.exportLevel fd.field (src.read fd) e)) := by
  have none : ∀ (r : R (Option Val)), ¬ Convertible ctx c fd (src.read fd) → Traced (St.pure r)
      (fun e => Convertible ctx c fd (src.read fd) ∧ (e = .call c fd (src.read fd) ∨ FieldHappens env ctx c.exportLevel fd.field (src.read fd) e)) :=
    fun r h => (Traced.pure r).of_iff fun e => ⟨False.elim, fun h' => h h'.1⟩
  unfold exportFieldX
  by_cases h1 : skipped flt fd.name (src.read fd) = true
  · rw [if_pos h1]
    refine none _ fun hp => ?_
    rw [convertible_iff hflt, h1] at hp
    cases hp.2.1
  · rw [if_neg h1]
    by_cases h2 : exportLevelOf ctx c.exportLevel fd.field = DROP
    · rw [if_pos h2]; exact none _ fun hp => ((convertible_iff hflt).1 hp).2.2.1 h2
    · rw [if_neg h2]
      by_cases h3 : (src.read fd).isEmpty = true
      · rw [if_pos h3]
        refine none _ fun hp => ?_
        rw [convertible_iff hflt, h3] at hp
        cases hp.2.2.2
      · rw [if_neg h3]
        have hp : Convertible ctx c fd (src.read fd) := (convertible_iff hflt).2 ⟨hfd, by simpa using h1, h2, by simpa using h3⟩
        have hcall : Traced ((logging ctx.fmt).call (fun fmt v => recX fmt c.exportLevel fd.field v) c fd (src.read fd))
            (fun e => e = .call c fd (src.read fd) ∨ FieldHappens env ctx c.exportLevel fd.field (src.read fd) e) := by
          intro s
          obtain ⟨T, h4, h5, h6⟩ := hrec c.exportLevel fd.field (src.read fd) (s ++ [.call c fd (src.read fd)])
          refine ⟨.call c fd (src.read fd) :: T, ?_, ?_, ?_⟩
          · show (recX ctx.fmt c.exportLevel fd.field (src.read fd) (s ++ [.call c fd (src.read fd)])).2 = _
            rw [h4]; simp
          · intro e he
            rcases List.mem_cons.1 he with he | he
            · exact .inl he
            · exact .inr (h5 e he)
          · intro a ha e he
            rcases he with he | he
            · rw [he]; exact List.mem_cons_self ..
            · exact List.mem_cons_of_mem _ (h6 a ha e he)
        exact (Traced.bind hcall (fun _ _ _ => Traced.pure _)).of_iff fun e => ⟨fun h => ⟨hp, h.resolve_right id⟩, fun h => .inl h.2⟩

theorem exportFieldsX_traced {recX : XRec (List Ev)} (hrec : ∀ owner f v, Traced (recX ctx.fmt owner f v) (FieldHappens env ctx owner f v)) (c : ClassDef) (flt : Option RoleFn)
    (hflt : roleFilter ctx c = some flt) (src : Src) : ∀ (fds : List FieldDef), (∀ fd ∈ fds, fd ∈ c.fields) → ∀ d,
    Traced (exportFieldsX (logging ctx.fmt) recX ctx c flt src fds d)
      (fun e => ∃ fd ∈ fds, Convertible ctx c fd (src.read fd) ∧ (e = .call c fd (src.read fd) ∨ FieldHappens env ctx c.exportLevel fd.field (src.read fd) e)) := by
  intro fds
  induction fds with
  | nil => intro _ d; exact (Traced.pure _).of_iff fun e => by simp
  | cons fd fds ih =>
    intro hm d
    refine (Traced.bind (exportFieldX_traced hrec c flt hflt src fd (hm fd (List.mem_cons_self ..)))
      (fun _ o _ => ih (fun g hg => hm g (List.mem_cons_of_mem _ hg)) (putX fd d o))).of_iff fun e => ?_
    simp only [List.mem_cons, exists_eq_or_imp]

theorem exportLoopX_traced (hrec : ∀ owner f v, Traced (fieldExportX (logging ctx.fmt) env ctx n ctx.fmt owner f v) (FieldHappens env ctx owner f v)) (c : ClassDef) (src : Src) :
    Traced (exportLoopX (logging ctx.fmt) (fieldExportX (logging ctx.fmt) env ctx n) ctx c src) (Happens env ctx c src) := by
  have hpre : Traced ((logging ctx.fmt).pre c src) (fun e => e = .pre c src) := fun s => ⟨[.pre c src], rfl, by simp, by simp⟩
  have hsrc : ∀ s src', ((logging ctx.fmt).pre c src s).1 = .ok src' → src' = src := fun s src' h => by cases h; rfl
  have hbody : Traced (exportBodyX (logging ctx.fmt) (fieldExportX (logging ctx.fmt) env ctx n) ctx c src)
      (fun e => ∃ fd, Convertible ctx c fd (src.read fd) ∧ (e = .call c fd (src.read fd) ∨ FieldHappens env ctx c.exportLevel fd.field (src.read fd) e)) := by
    unfold exportBodyX
    cases hf : roleFilter ctx c with
    | none =>
      refine (Traced.pure _).of_iff fun e => ⟨False.elim, fun ⟨fd, hp, _⟩ => not_convertible hf hp⟩
    | some flt =>
      exact (exportFieldsX_traced hrec c flt hf src c.fields (fun _ h => h) []).of_iff fun e =>
        ⟨fun ⟨fd, _, h⟩ => ⟨fd, h⟩, fun ⟨fd, h⟩ => ⟨fd, h.1.field, h⟩⟩
  refine (Traced.bind (Q := fun e => (∃ fd, Convertible ctx c fd (src.read fd) ∧ (e = .call c fd (src.read fd) ∨ FieldHappens env ctx c.exportLevel fd.field (src.read fd) e)) ∨
      ∃ d n, e = .post c d ∧ runExport env n ctx c src = .ok d) hpre (fun s src' h => ?_)).of_iff fun e => happens_iff.symm
  cases hsrc s src' h
  refine Traced.bind hbody fun s d hd => ?_
  have hd' : runExport env n ctx c src = .ok d := by
    rw [← hd]
    exact (exportBodyX_res (ctx := ctx) (fieldExportX_res env n) (fieldExport_sized env _ n) c src s).symm
  intro s
  refine ⟨[.post c d], rfl, ?_, ?_⟩
  · intro e he
    rw [List.mem_singleton] at he
    exact ⟨d, n, he, hd'⟩
  · rintro _ _ e ⟨d', m, rfl, h⟩
    rw [runExport_unique h hd']; exact List.mem_singleton.2 rfl

theorem exportItemsX_traced {f : Val → St (List Ev) Val} {hx : Val → R Bool} {P : Val → Ev → Prop} (hf : ∀ v, Traced (f v) (P v)) :
    ∀ xs, Traced (exportItemsX f hx xs) (fun e => ∃ x ∈ xs, P x e)
  | [] => (Traced.pure _).of_iff fun e => by simp
  | x :: xs => (Traced.bind (hf x) fun _ _ _ => Traced.bind (Traced.pure _) fun _ _ _ => Traced.bind (exportItemsX_traced hf xs) fun _ _ _ => Traced.pure _).of_iff fun e => by
      simp only [List.mem_cons, exists_eq_or_imp, false_or, or_false]

theorem exportPairsX_traced {f : Val → St (List Ev) Val} {hx : Val → R Bool} {P : Val → Ev → Prop} (hf : ∀ v, Traced (f v) (P v)) :
    ∀ xs, Traced (exportPairsX f hx xs) (fun e => ∃ x ∈ xs, P x.2 e)
  | [] => (Traced.pure _).of_iff fun e => by simp
  | (k, x) :: xs => (Traced.bind (hf x) fun _ _ _ => Traced.bind (Traced.pure _) fun _ _ _ => Traced.bind (exportPairsX_traced hf xs) fun _ _ _ => Traced.pure _).of_iff fun e => by
      simp only [List.mem_cons, exists_eq_or_imp, false_or, or_false]

end traced

theorem contains_model {env : Env} {ctx : ECtx} {owner : Nat} {f : Field} {v : Val} {c : ClassDef} {src : Src} (hf : (∃ c, f.ty = .model c) ∨ ∃ p, f.ty = .poly p) :
    Contains env ctx owner f v c src ↔ nested env f.ty v = .ok (c, src) := by
  constructor
  · intro h
    rcases hf with ⟨_, hf⟩ | ⟨_, hf⟩ <;> cases h with
    | model h hn => rw [h]; exact hn
    | poly h hn => rw [h]; exact hn
    | item h => rw [hf] at h; cases h
    | entry h => rw [hf] at h; cases h
  · intro h
    rcases hf with ⟨_, hf⟩ | ⟨_, hf⟩
    · exact .model hf (hf ▸ h)
    · exact .poly hf (hf ▸ h)

theorem fieldExportX_traced (env : Env) (ctx : ECtx) : ∀ (n : Nat) (owner : Nat) (f : Field) (v : Val),
    Traced (fieldExportX (logging ctx.fmt) env ctx n ctx.fmt owner f v) (FieldHappens env ctx owner f v) := by
  intro n
  induction n with
  | zero => intro owner f v s; exact ⟨[], by simp [fieldExportX, St.pure], by simp, nofun⟩
  | succ n ih =>
    intro owner f v
    have hmod : ((∃ c, f.ty = .model c) ∨ ∃ p, f.ty = .poly p) →
        Traced (nestedX (logging ctx.fmt) (fieldExportX (logging ctx.fmt) env ctx n) ctx (nested env f.ty v)) (FieldHappens env ctx owner f v) := by
      intro hf
      cases hn : nested env f.ty v with
      | error e => exact (Traced.pure _).of_iff fun e => ⟨False.elim, fun ⟨c, src, hc, _⟩ => by rw [contains_model hf, hn] at hc; cases hc⟩
      | ok q =>
        refine (exportLoopX_traced ih q.1 q.2).of_iff fun e => ⟨fun h => ⟨q.1, q.2, (contains_model hf).2 hn, h⟩, fun ⟨c, src, hc, h⟩ => ?_⟩
        rw [contains_model hf, hn] at hc; cases hc; exact h
    have hno : ∀ r : R Val, (∀ c src, ¬ Contains env ctx owner f v c src) → Traced (St.pure r) (FieldHappens env ctx owner f v) :=
      fun r h => (Traced.pure r).of_iff fun e => ⟨False.elim, fun ⟨c, src, hc, _⟩ => h c src hc⟩
    rw [fieldExportX]
    unfold exportFX
    cases ht : f.ty with
    | leaf l =>
      refine hno _ fun c src hc => ?_
      cases hc with
      | model h => rw [ht] at h; cases h
      | poly h => rw [ht] at h; cases h
      | item h => rw [ht] at h; cases h
      | entry h => rw [ht] at h; cases h
    | list inner mn mx =>
      have hc : ∀ {c src}, Contains env ctx owner f v c src ↔ exportLevelOf ctx owner inner ≠ DROP ∧ ∃ xs, iterItems env v = some xs ∧ ∃ x ∈ xs, Contains env ctx owner inner x c src := by
        intro c src
        constructor
        · intro hc
          cases hc with
          | model h => rw [ht] at h; cases h
          | poly h => rw [ht] at h; cases h
          | item h hl hi hx hc => rw [ht] at h; cases h; exact ⟨hl, _, hi, _, hx, hc⟩
          | entry h => rw [ht] at h; cases h
        · rintro ⟨hl, xs, hi, x, hx, hc⟩; exact .item ht hl hi hx hc
      dsimp only
      by_cases hd : exportLevelOf ctx owner inner = DROP
      · rw [if_pos hd]; exact hno _ fun c src h => (hc.1 h).1 hd
      · rw [if_neg hd]
        cases hi : iterItems env v with
        | none => exact hno _ fun c src h => by obtain ⟨-, xs, h, -⟩ := hc.1 h; rw [hi] at h; cases h
        | some xs =>
          refine (Traced.bind (exportItemsX_traced (ih owner inner) xs) fun _ _ _ => Traced.pure _).of_iff fun e => ?_
          rw [or_false]
          constructor
          · rintro ⟨x, hx, c, src, h, he⟩; exact ⟨c, src, hc.2 ⟨hd, xs, hi, x, hx, h⟩, he⟩
          · rintro ⟨c, src, h, he⟩
            obtain ⟨-, xs', h1, x, hx, h⟩ := hc.1 h
            rw [hi] at h1; cases h1
            exact ⟨x, hx, c, src, h, he⟩
    | dict inner k =>
      have hc : ∀ {c src}, Contains env ctx owner f v c src ↔ exportLevelOf ctx owner inner ≠ DROP ∧ ∃ xs, iterPairs env v = some xs ∧ ∃ x ∈ xs, Contains env ctx owner inner x.2 c src := by
        intro c src
        constructor
        · intro hc
          cases hc with
          | model h => rw [ht] at h; cases h
          | poly h => rw [ht] at h; cases h
          | item h => rw [ht] at h; cases h
          | entry h hl hi hx hc => rw [ht] at h; cases h; exact ⟨hl, _, hi, _, hx, hc⟩
        · rintro ⟨hl, xs, hi, x, hx, hc⟩; exact .entry ht hl hi hx hc
      dsimp only
      by_cases hd : exportLevelOf ctx owner inner = DROP
      · rw [if_pos hd]; exact hno _ fun c src h => (hc.1 h).1 hd
      · rw [if_neg hd]
        cases hi : iterPairs env v with
        | none => exact hno _ fun c src h => by obtain ⟨-, xs, h, -⟩ := hc.1 h; rw [hi] at h; cases h
        | some xs =>
          refine (Traced.bind (exportPairsX_traced (ih owner inner) xs) fun _ _ _ => Traced.pure _).of_iff fun e => ?_
          rw [or_false]
          constructor
          · rintro ⟨x, hx, c, src, h, he⟩; exact ⟨c, src, hc.2 ⟨hd, xs, hi, x, hx, h⟩, he⟩
          · rintro ⟨c, src, h, he⟩
            obtain ⟨-, xs', h1, x, hx, h⟩ := hc.1 h
            rw [hi] at h1; cases h1
            exact ⟨x, hx, c, src, h, he⟩
    | model cls => have := hmod (.inl ⟨cls, ht⟩); rw [ht] at this; exact this
    | poly p => have := hmod (.inr ⟨p, ht⟩); rw [ht] at this; exact this

/-- **C95, what a converter is asked**: an export calls `pre` for exactly the models it involves (those reached through permitted fields, list items and dict values), `__call__` for exactly the permitted
fields of these models with their values, and `post` with exactly their exported dicts; if it raises, it has called a part of this. -/
theorem C95_calls (env : Env) (n : Nat) (ctx : ECtx) (c : ClassDef) (src : Src) (s : List Ev) :
    ∃ T, (runExportX (logging ctx.fmt) env n ctx c src s).2 = s ++ T ∧ (∀ e ∈ T, Happens env ctx c src e) ∧
      ∀ w, (runExportX (logging ctx.fmt) env n ctx c src s).1 = .ok w → ∀ e, Happens env ctx c src e → e ∈ T :=
  exportLoopX_traced (fieldExportX_traced env ctx n) c src s

/-! ## The sequence of the calls, for every converter -/

/-- The converter is called for these fields and values, one after the other, each call in the state that the previous one left; none raises. -/
inductive Calls (cv : Converter σ) (ex : FieldDef → Fmt → Val → St σ Val) (c : ClassDef) : List (FieldDef × Val) → σ → List Val → σ → Prop
  | nil (s : σ) : Calls cv ex c [] s [] s
  | cons {fd : FieldDef} {v w : Val} {s s1 s2 : σ} {rest : List (FieldDef × Val)} {ws : List Val} (h : cv.call (ex fd) c fd v s = (.ok w, s1)) (hr : Calls cv ex c rest s1 ws s2) :
      Calls cv ex c ((fd, v) :: rest) s (w :: ws) s2

open Classical in
/-- The convertible fields of a model, in the order of declaration, with their values. -/
noncomputable def convertibles (ctx : ECtx) (c : ClassDef) (src : Src) (fds : List FieldDef) : List (FieldDef × Val) :=
  (fds.filter fun fd => decide (Convertible ctx c fd (src.read fd))).map fun fd => (fd, src.read fd)

theorem convertibles_cons {ctx : ECtx} {c : ClassDef} {src : Src} {fd : FieldDef} {fds : List FieldDef} (h : Convertible ctx c fd (src.read fd)) :
    convertibles ctx c src (fd :: fds) = (fd, src.read fd) :: convertibles ctx c src fds := by
  unfold convertibles; rw [List.filter_cons_of_pos (by simpa using h)]; rfl

theorem convertibles_skip {ctx : ECtx} {c : ClassDef} {src : Src} {fd : FieldDef} {fds : List FieldDef} (h : ¬ Convertible ctx c fd (src.read fd)) :
    convertibles ctx c src (fd :: fds) = convertibles ctx c src fds := by
  unfold convertibles; rw [List.filter_cons_of_neg (by simpa using h)]

/-- The entry of a field with exported value `w`: what `ShownAt` says. -/
def Entry (l : Nat) (f : Field) (w : Val) (o : Option Val) : Prop :=
  (ShownAt l f w ∧ o = some (if w.isUndef then .none else w)) ∨ (¬ ShownAt l f w ∧ o = none)

/-- The role in force hides the field with this value. -/
def HiddenByRole (ctx : ECtx) (c : ClassDef) (fd : FieldDef) (v : Val) : Prop := ∃ g, RoleInForce ctx c (some g) ∧ g fd.name v = true

/-- What becomes of a field that is not convertible: if the role hides it or its level is `DROP`, it is left out; otherwise it has no value, and is shown or left out like every missing value. -/
def Left (ctx : ECtx) (c : ClassDef) (src : Src) (fd : FieldDef) (o : Option Val) : Prop :=
  ((HiddenByRole ctx c fd (src.read fd) ∨ LevelOf ctx c fd DROP) ∧ o = none) ∨
    (¬ HiddenByRole ctx c fd (src.read fd) ∧ (src.read fd = .none ∨ src.read fd = .undef) ∧ ∃ l, LevelOf ctx c fd l ∧ l ≠ DROP ∧ Entry l fd.field (src.read fd) o)

/-- What becomes of a field: `ws` are the values that the converter returned for the convertible fields `L`. -/
def Becomes (ctx : ECtx) (c : ClassDef) (src : Src) (L : List (FieldDef × Val)) (ws : List Val) (fd : FieldDef) (o : Option Val) : Prop :=
  (Convertible ctx c fd (src.read fd) → ∃ w, ((fd, src.read fd), w) ∈ L.zip ws ∧ ∃ l, LevelOf ctx c fd l ∧ Entry l fd.field w o) ∧
  (¬ Convertible ctx c fd (src.read fd) → Left ctx c src fd o)

theorem hidden_iff {ctx : ECtx} {c : ClassDef} {fd : FieldDef} {v : Val} {flt : Option RoleFn} (hflt : roleFilter ctx c = some flt) :
    skipped flt fd.name v = true ↔ HiddenByRole ctx c fd v := by
  rcases roleFilter_spec ctx c with ⟨_, hr⟩ | ⟨hne, g, hg, hin⟩
  · rw [hr] at hflt; cases hflt
  · rw [hflt] at hg; cases hg
    constructor
    · intro h
      cases flt with
      | none => cases h
      | some g => exact ⟨g, hin, h⟩
    · rintro ⟨g, h1, h2⟩
      cases roleInForce_unique h1 hin
      exact h2

theorem sized_pyLen {w : Val} {n : Nat} (h : sized w = some n) : n = pyLen w := by
  cases w <;> cases h <;> rfl

theorem keepX_entry {l : Nat} {f : Field} {w : Val} {o : Option Val} (h : keepX l f w = .ok o) : Entry l f w o := by
  have hh : hiddenX l f w = .ok (hidden l f w) ∨ ∃ e, hiddenX l f w = .error e := by
    cases hs : sized w with
    | some n => rw [sized_pyLen hs] at hs; exact .inl (hiddenX_of (fun _ => .inl hs) l)
    | none =>
      by_cases he : w.isEmpty = true
      · exact .inl (hiddenX_of (fun _ => .inr he) l)
      · by_cases hc : f.ty.isCompound = true
        · refine .inr ⟨.other "TypeError", ?_⟩
          unfold hiddenX
          have hu : ¬ w.isUndef = true := by intro hu; apply he; cases w <;> first | rfl | cases hu
          rw [if_neg hu, if_neg he, if_pos hc, hs]
        · exact .inl (hiddenX_of (fun h => h.elim (fun h => absurd h he) (fun h => absurd h hc)) l)
  unfold keepX at h
  unfold Entry
  rcases hh with hh | ⟨e, hh⟩
  · rw [hh] at h
    cases hb : hidden l f w with
    | true =>
      rw [hb] at h; cases h
      exact .inr ⟨fun hs => (by rw [shownAt_iff, hb] at hs; cases hs), rfl⟩
    | false => rw [hb] at h; cases h; exact .inl ⟨(shownAt_iff ..).2 hb, rfl⟩
  · rw [hh] at h; cases h

theorem entries_get? (f : FieldDef → Option Val) {c : ClassDef} (hext : DistinctExt c) {fd : FieldDef} (hfd : fd ∈ c.fields) :
    Dict.get? (Dict.update ([] : Data) (c.fields.flatMap fun fd => entryOf fd (f fd))) (.str fd.extName) = f fd := by
  have hnd := flatMap_entry_nodup f c.fields hext
  rw [update_fresh _ _ (by simpa using hnd), List.nil_append]
  cases hf : f fd with
  | some w => exact Dict.get?_of_mem hnd (List.mem_flatMap.2 ⟨fd, hfd, by rw [hf]; simp [entryOf]⟩)
  | none =>
    rw [Dict.get?_eq_none]
    intro hk
    obtain ⟨kv, hkv, hke⟩ := List.mem_map.1 hk
    obtain ⟨fd', hfd', he⟩ := List.mem_flatMap.1 hkv
    cases hf' : f fd' with
    | none => rw [hf'] at he; cases he
    | some w =>
      rw [hf'] at he
      cases List.mem_singleton.1 he
      have : fd' = fd := List.inj_on_of_nodup_map hext hfd' hfd (by injection hke)
      rw [this, hf] at hf'; cases hf'

section sequence
variable {cv : Converter σ} {recX : XRec σ} {ctx : ECtx} {c : ClassDef} {flt : Option RoleFn} {src : Src}

theorem exportFieldX_seq (hflt : roleFilter ctx c = some flt) {fd : FieldDef} (hfd : fd ∈ c.fields) {s s' : σ} {r : R (Option Val)}
    (h : exportFieldX cv recX ctx c flt src fd s = (r, s')) :
    (¬ Convertible ctx c fd (src.read fd) ∧ s' = s ∧ ∃ o, r = .ok o ∧ Left ctx c src fd o) ∨
    (Convertible ctx c fd (src.read fd) ∧ ∃ r1, cv.call (fun fmt v => recX fmt c.exportLevel fd.field v) c fd (src.read fd) s = (r1, s') ∧
      ((∃ e, r1 = .error e ∧ r = .error e) ∨ ∃ w, r1 = .ok w ∧ r = keepX (exportLevelOf ctx c.exportLevel fd.field) fd.field w)) := by
  unfold exportFieldX at h
  by_cases h1 : skipped flt fd.name (src.read fd) = true
  · rw [if_pos h1] at h; cases h
    refine .inl ⟨fun hc => ?_, rfl, _, rfl, .inl ⟨.inl ((hidden_iff hflt).1 h1), rfl⟩⟩
    rw [convertible_iff hflt, h1] at hc; cases hc.2.1
  · rw [if_neg h1] at h
    by_cases h2 : exportLevelOf ctx c.exportLevel fd.field = DROP
    · rw [if_pos h2] at h; cases h
      exact .inl ⟨fun hc => ((convertible_iff hflt).1 hc).2.2.1 h2, rfl, _, rfl, .inl ⟨.inr ((levelOf_iff ..).2 h2), rfl⟩⟩
    · rw [if_neg h2] at h
      by_cases h3 : (src.read fd).isEmpty = true
      · rw [if_pos h3] at h
        have hv : src.read fd = .none ∨ src.read fd = .undef := by cases hr : src.read fd <;> rw [hr] at h3 <;> first | exact .inl rfl | exact .inr rfl | cases h3
        have he : ∃ o, keepX (exportLevelOf ctx c.exportLevel fd.field) fd.field (src.read fd) = .ok o := by
          unfold keepX
          rw [hiddenX_of (fun _ => .inr h3)]
          cases hidden (exportLevelOf ctx c.exportLevel fd.field) fd.field (src.read fd) <;> exact ⟨_, rfl⟩
        obtain ⟨o, he⟩ := he
        have h : (keepX (exportLevelOf ctx c.exportLevel fd.field) fd.field (src.read fd), s) = (r, s') := h
        rw [he] at h; cases h
        exact .inl ⟨fun hc => (by rw [convertible_iff hflt, h3] at hc; cases hc.2.2.2), rfl, o, rfl, .inr ⟨fun h => h1 ((hidden_iff hflt).2 h), hv, _, (levelOf_iff ..).2 rfl, h2, keepX_entry he⟩⟩
      · rw [if_neg h3] at h
        refine .inr ⟨(convertible_iff hflt).2 ⟨hfd, by simpa using h1, h2, by simpa using h3⟩, ?_⟩
        unfold St.bind at h
        rcases hm : cv.call (fun fmt v => recX fmt c.exportLevel fd.field v) c fd (src.read fd) s with ⟨r1, s1⟩
        rw [hm] at h
        cases r1 with
        | error e => cases h; exact ⟨_, rfl, .inl ⟨e, rfl, rfl⟩⟩
        | ok w => cases h; exact ⟨_, rfl, .inr ⟨w, rfl, rfl⟩⟩

open Classical in
/-- A function changed at one point. -/
noncomputable def upd (f : FieldDef → Option Val) (fd : FieldDef) (o : Option Val) : FieldDef → Option Val := fun g => if g = fd then o else f g

theorem upd_self {f : FieldDef → Option Val} {fd : FieldDef} {o : Option Val} : upd f fd o fd = o := by unfold upd; rw [if_pos rfl]

theorem upd_ne {f : FieldDef → Option Val} {fd g : FieldDef} {o : Option Val} (h : g ≠ fd) : upd f fd o g = f g := by unfold upd; rw [if_neg h]

theorem Becomes.cons {L : List (FieldDef × Val)} {ws : List Val} {fd : FieldDef} {o : Option Val} (p : FieldDef × Val) (w : Val) (h : Becomes ctx c src L ws fd o) :
    Becomes ctx c src (p :: L) (w :: ws) fd o :=
  ⟨fun hc => by obtain ⟨w', hm, hl⟩ := h.1 hc; exact ⟨w', List.mem_cons_of_mem _ hm, hl⟩, h.2⟩

open Classical in
theorem exportFieldsX_seq (hflt : roleFilter ctx c = some flt) : ∀ (fds : List FieldDef), (∀ fd ∈ fds, fd ∈ c.fields) → fds.Nodup → ∀ {d d' : Data} {s s' : σ},
    exportFieldsX cv recX ctx c flt src fds d s = (.ok d', s') →
    ∃ (ws : List Val) (f : FieldDef → Option Val), Calls cv (fun fd fmt v => recX fmt c.exportLevel fd.field v) c (convertibles ctx c src fds) s ws s' ∧
      (∀ fd ∈ fds, Becomes ctx c src (convertibles ctx c src fds) ws fd (f fd)) ∧ d' = d.update (fds.flatMap fun fd => entryOf fd (f fd)) := by
  intro fds
  induction fds with
  | nil => intro _ _ d d' s s' h; cases h; exact ⟨[], fun _ => none, .nil s, by simp, rfl⟩
  | cons fd fds ih =>
    intro hm hn d d' s s' h
    have ih := @ih (fun g hg => hm g (List.mem_cons_of_mem _ hg)) (List.nodup_cons.1 hn).2
    have h : St.bind (exportFieldX cv recX ctx c flt src fd) (fun o => exportFieldsX cv recX ctx c flt src fds (putX fd d o)) s = (.ok d', s') := h
    unfold St.bind at h
    rcases hx : exportFieldX cv recX ctx c flt src fd s with ⟨r, s1⟩
    rw [hx] at h
    cases r with
    | error e => cases h
    | ok o =>
      obtain ⟨ws, f, h1, h2, h3⟩ := ih h
      have hne : ∀ g ∈ fds, g ≠ fd := fun g hg e => (List.nodup_cons.1 hn).1 (e ▸ hg)
      have hput : d' = d.update ((fd :: fds).flatMap fun g => entryOf g (upd f fd o g)) := by
        rw [h3, List.flatMap_cons, upd_self]
        have e1 : (fds.flatMap fun g => entryOf g (f g)) = fds.flatMap fun g => entryOf g (upd f fd o g) :=
          List.flatMap_congr fun g hg => by rw [upd_ne (hne g hg)]
        rw [e1]
        cases o <;> rfl
      rcases exportFieldX_seq hflt (hm fd (List.mem_cons_self ..)) hx with ⟨hc, rfl, o', ho, hres⟩ | ⟨hc, r1, hcall, hres⟩
      · cases ho
        rw [convertibles_skip hc]
        refine ⟨ws, upd f fd o, h1, fun g hg => ?_, hput⟩
        rcases List.mem_cons.1 hg with rfl | hg
        · rw [upd_self]; exact ⟨fun h => absurd h hc, fun _ => hres⟩
        · rw [upd_ne (hne g hg)]; exact h2 g hg
      · rw [convertibles_cons hc]
        rcases hres with ⟨e, _, he⟩ | ⟨w, rfl, hk⟩
        · cases he
        · refine ⟨w :: ws, upd f fd o, .cons hcall h1, fun g hg => ?_, hput⟩
          rcases List.mem_cons.1 hg with rfl | hg
          · rw [upd_self]
            exact ⟨fun _ => ⟨w, List.mem_cons_self .., _, (levelOf_iff ..).2 rfl, keepX_entry hk.symm⟩, fun h => absurd hc h⟩
          · rw [upd_ne (hne g hg)]; exact (h2 g hg).cons _ _

/-- The ways in which the loop fails: the calls for some of the first convertible fields succeed, and then the call for the next one raises, or returns a value for a compound field
that has no length. -/
theorem exportFieldsX_fail (hflt : roleFilter ctx c = some flt) : ∀ (fds : List FieldDef), (∀ fd ∈ fds, fd ∈ c.fields) → ∀ {d : Data} {s s' : σ} {e : Exc},
    exportFieldsX cv recX ctx c flt src fds d s = (.error e, s') →
    ∃ (done : List (FieldDef × Val)) (fd : FieldDef) (rest : List (FieldDef × Val)) (ws : List Val) (s1 : σ), convertibles ctx c src fds = done ++ (fd, src.read fd) :: rest ∧
      Calls cv (fun fd fmt v => recX fmt c.exportLevel fd.field v) c done s ws s1 ∧
      (cv.call (fun fmt v => recX fmt c.exportLevel fd.field v) c fd (src.read fd) s1 = (.error e, s') ∨
        ∃ w, cv.call (fun fmt v => recX fmt c.exportLevel fd.field v) c fd (src.read fd) s1 = (.ok w, s') ∧ e = .other "TypeError" ∧ fd.field.ty.isCompound = true ∧ sized w = none) := by
  intro fds
  induction fds with
  | nil => intro _ d s s' e h; cases h
  | cons fd fds ih =>
    intro hm d s s' e h
    have ih := @ih (fun g hg => hm g (List.mem_cons_of_mem _ hg))
    have h : St.bind (exportFieldX cv recX ctx c flt src fd) (fun o => exportFieldsX cv recX ctx c flt src fds (putX fd d o)) s = (.error e, s') := h
    unfold St.bind at h
    rcases hx : exportFieldX cv recX ctx c flt src fd s with ⟨r, s1⟩
    rw [hx] at h
    rcases exportFieldX_seq hflt (hm fd (List.mem_cons_self ..)) hx with ⟨hc, rfl, o', rfl, hres⟩ | ⟨hc, r1, hcall, hres⟩
    · rw [convertibles_skip hc]; exact ih h
    · rw [convertibles_cons hc]
      cases r with
      | error e' =>
        cases h
        refine ⟨[], fd, _, [], s, rfl, .nil s, ?_⟩
        rcases hres with ⟨e1, rfl, he⟩ | ⟨w, rfl, hk⟩
        · cases he; exact .inl hcall
        · refine .inr ⟨w, hcall, ?_⟩
          unfold keepX hiddenX at hk
          split at hk
          · rename_i e2 he
            cases hk
            split at he
            · cases he
            · split at he
              · cases he
              · split at he
                · rename_i hcomp
                  split at he
                  · rename_i hs; cases he; exact ⟨rfl, hcomp, hs⟩
                  · cases he
                · cases he
          · cases hk
          · cases hk
      | ok o =>
        obtain ⟨done, fd', rest, ws, s2, h1, h2, h3⟩ := ih h
        rcases hres with ⟨e1, rfl, he⟩ | ⟨w, rfl, hk⟩
        · cases he
        · exact ⟨(fd, src.read fd) :: done, fd', rest, w :: ws, s2, by rw [h1]; rfl, .cons hcall h2, h3⟩

end sequence

/-- **C95, the sequence of the calls**: for every converter, with whatever effects, an export that succeeds has called `pre` once, then the converter for exactly the convertible fields of what
`pre` returned, once each, in the order of declaration, then `post` once with the dict of the values that the calls returned (left out or replaced by `None` as for every export); its result is what `post`
returned. -/
theorem C95_sequence {σ : Type} (cv : Converter σ) (env : Env) (n : Nat) (ctx : ECtx) (c : ClassDef) (hext : DistinctExt c) (src : Src) (s s' : σ) (r : Val)
    (h : runExportX cv env n ctx c src s = (.ok r, s')) :
    ∃ (src1 : Src) (s1 s2 : σ) (ws : List Val) (d : Data), cv.pre c src s = (.ok src1, s1) ∧
      Calls cv (fun fd fmt v => fieldExportX cv env ctx n fmt c.exportLevel fd.field v) c (convertibles ctx c src1 c.fields) s1 ws s2 ∧
      cv.post c d s2 = (.ok r, s') ∧
      (∀ fd ∈ c.fields, Becomes ctx c src1 (convertibles ctx c src1 c.fields) ws fd (Dict.get? d (.str fd.extName))) ∧
      ∀ k ∈ Dict.keys d, ∃ fd ∈ c.fields, k = .str fd.extName := by
  unfold runExportX exportLoopX at h
  unfold St.bind at h
  rcases hp : cv.pre c src s with ⟨q, s1⟩
  rw [hp] at h
  cases q with
  | error e => cases h
  | ok src1 =>
    dsimp only at h
    rcases hb : exportBodyX cv (fieldExportX cv env ctx n) ctx c src1 s1 with ⟨q, s2⟩
    rw [hb] at h
    cases q with
    | error e => cases h
    | ok d =>
      unfold exportBodyX at hb
      cases hf : roleFilter ctx c with
      | none => rw [hf] at hb; cases hb
      | some flt =>
        rw [hf] at hb
        have hn : c.fields.Nodup := List.Nodup.of_map _ hext
        obtain ⟨ws, f, h1, h2, h3⟩ := exportFieldsX_seq hf c.fields (fun _ h => h) hn hb
        have hget : ∀ fd ∈ c.fields, Dict.get? d (.str fd.extName) = f fd := fun fd hfd => by rw [h3]; exact entries_get? f hext hfd
        refine ⟨src1, s1, s2, ws, d, rfl, h1, h, fun fd hfd => by rw [hget fd hfd]; exact h2 fd hfd, fun k hk => ?_⟩
        obtain ⟨kv, hkv, rfl⟩ := List.mem_map.1 hk
        rw [h3] at hkv
        obtain ⟨fd, hfd, he⟩ := List.mem_flatMap.1 (mem_update_nil hkv)
        refine ⟨fd, hfd, ?_⟩
        cases hfo : f fd with
        | none => rw [hfo] at he; cases he
        | some w => rw [hfo] at he; cases List.mem_singleton.1 he; rfl

/-- **C95, failures**: if an export with a converter raises, then `pre` raised; or the role does not exist; or the calls for some of the first convertible fields succeeded and the next one raised, or
returned for a compound field a value without a length (`TypeError`); or all calls succeeded and `post` raised.  Nothing else was called: `post` is not called after an exception. -/
theorem C95_failure {σ : Type} (cv : Converter σ) (env : Env) (n : Nat) (ctx : ECtx) (c : ClassDef) (hext : DistinctExt c) (src : Src) (s s' : σ) (e : Exc)
    (h : runExportX cv env n ctx c src s = (.error e, s')) :
    cv.pre c src s = (.error e, s') ∨ ∃ (src1 : Src) (s1 : σ), cv.pre c src s = (.ok src1, s1) ∧
      ((RoleError ctx c ∧ e = .other "ValueError" ∧ s' = s1) ∨
        (∃ (done : List (FieldDef × Val)) (fd : FieldDef) (rest : List (FieldDef × Val)) (ws : List Val) (s2 : σ),
          convertibles ctx c src1 c.fields = done ++ (fd, src1.read fd) :: rest ∧
          Calls cv (fun fd fmt v => fieldExportX cv env ctx n fmt c.exportLevel fd.field v) c done s1 ws s2 ∧
          (cv.call (fun fmt v => fieldExportX cv env ctx n fmt c.exportLevel fd.field v) c fd (src1.read fd) s2 = (.error e, s') ∨
            ∃ w, cv.call (fun fmt v => fieldExportX cv env ctx n fmt c.exportLevel fd.field v) c fd (src1.read fd) s2 = (.ok w, s') ∧
              e = .other "TypeError" ∧ fd.field.ty.isCompound = true ∧ sized w = none)) ∨
        ∃ (ws : List Val) (s2 : σ) (d : Data), Calls cv (fun fd fmt v => fieldExportX cv env ctx n fmt c.exportLevel fd.field v) c (convertibles ctx c src1 c.fields) s1 ws s2 ∧
          cv.post c d s2 = (.error e, s')) := by
  unfold runExportX exportLoopX at h
  unfold St.bind at h
  rcases hp : cv.pre c src s with ⟨q, s1⟩
  rw [hp] at h
  cases q with
  | error e => cases h; exact .inl rfl
  | ok src1 =>
    dsimp only at h
    refine .inr ⟨src1, s1, rfl, ?_⟩
    rcases hb : exportBodyX cv (fieldExportX cv env ctx n) ctx c src1 s1 with ⟨q, s2⟩
    rw [hb] at h
    unfold exportBodyX at hb
    cases hf : roleFilter ctx c with
    | none =>
      rw [hf] at hb
      cases hb; cases h
      rcases roleFilter_spec ctx c with ⟨he, _⟩ | ⟨_, g, hg, _⟩
      · exact .inl ⟨he, rfl, rfl⟩
      · rw [hf] at hg; cases hg
    | some flt =>
      rw [hf] at hb
      cases q with
      | error e => cases h; exact .inr (.inl (exportFieldsX_fail hf c.fields (fun _ h => h) hb))
      | ok d =>
        obtain ⟨ws, f, h1, -, -⟩ := exportFieldsX_seq hf c.fields (fun _ h => h) (List.Nodup.of_map _ hext) hb
        exact .inr (.inr ⟨ws, s2, d, h1, h⟩)

/-- **C95, the argument**: `export` needs a function or a converter object; without the argument, or with another callable, it raises `AttributeError` before anything is read. -/
theorem C95_argument {σ : Type} (a : ConvArg σ) (env : Env) (n : Nat) (ctx : ECtx) (c : ClassDef) (src : Src) (s : σ) :
    (∀ f, a = .func f → modelExport a env n ctx c src s = runExportX { call := f } env n ctx c src s) ∧
    (∀ cv, a = .conv cv → modelExport a env n ctx c src s = runExportX cv env n ctx c src s) ∧
    ((a = .none ∨ a = .callable) → modelExport a env n ctx c src s = (.error (.other "AttributeError"), s)) :=
  ⟨fun _ h => by rw [h]; rfl, fun _ h => by rw [h]; rfl, fun h => by rcases h with h | h <;> rw [h] <;> rfl⟩

/-! ## Two surprises -/

/-- `class Box(Model): items = ListType(IntType()); parent = ModelType(Box)` -/
def boxClass : ClassDef where
  name := "Box"
  fields := [{ name := "items", field := .mk (.list Samples.intF none none) {} }, { name := "parent", field := .mk (.model "Box") {} }]
/-- The table with the class `Box`. -/
def boxEnv : Env := { cls := fun k => if k = "Box" then some boxClass else none, isSub := (· == ·), subs := fun _ => [] }

/-- Writes down the names of the fields it is called for and exports as usual. -/
def names : Converter (List String) := watching .primitive (fun _ _ s => s) (fun _ fd _ s => s ++ [fd.name]) (fun _ _ s => s)

/-- **C95, items**: the converter is called for the list field, not for its items, and again for the fields of the nested model. -/
theorem C95_counterexample_items :
    (runExportX names boxEnv 5 {} boxClass (.inst [(.str "items", .list [.int 1, .int 2]), (.str "parent", .inst "Box" [(.str "items", .list [.int 3])])]) []).2 =
      ["items", "parent", "items"] := by rfl

/-- **C95, sizes**: a converter that returns an `int` for a list field makes the export raise `TypeError`, although it may return any other text, list or dict. -/
theorem C95_counterexample_size :
    (runExportX (.basic fun _ _ _ _ => St.pure (.ok (.int 2))) boxEnv 5 {} boxClass (.inst [(.str "items", .list [.int 1, .int 2])]) ()).1 = .error (.other "TypeError") ∧
    (runExportX (.basic fun _ _ _ _ => St.pure (.ok (.str "1,2"))) boxEnv 5 {} boxClass (.inst [(.str "items", .list [.int 1, .int 2])]) ()).1 =
      .ok (.dict [(.str "items", .str "1,2")]) := ⟨by rfl, by rfl⟩

/-! ## The hypotheses are met -/

example := C95_watching (ctx := { role := some (.name "public") }) (fmt := .native) (onPre := fun _ _ s => s) (onCall := fun _ fd _ s => s ++ [fd.name]) (onPost := fun _ _ s => s)
  Samples.env 6 Samples.order (.inst Samples.goodData) ([] : List String)
/-- A converter may count: the number of calls only grows. -/
example := C95_only_permitted (I := fun k : Nat => 3 ≤ k) (cv := watching .primitive (fun _ _ s => s) (fun _ _ _ s => s + 1) (fun _ _ s => s)) (ctx := {}) Samples.env 6 Samples.order
  (.inst Samples.goodData) (fun _ _ _ h => h) (fun _ _ _ h => h) (fun _ _ _ v hex _ _ h => hex .primitive v _ (Nat.le_succ_of_le h)) 3 (Nat.le_refl 3)
example : Convertible {} boxClass { name := "items", field := .mk (.list Samples.intF none none) {} } (.list []) :=
  (convertible_iff (flt := none) rfl).2 ⟨by simp [boxClass], rfl, by decide, rfl⟩
example : Involves boxEnv {} boxClass (.inst [(.str "parent", .inst "Box" [])]) boxClass (.inst []) :=
  .step (fd := { name := "parent", field := .mk (.model "Box") {} }) ((convertible_iff (flt := none) rfl).2 ⟨by simp [boxClass], rfl, by decide, rfl⟩)
    (.model (cls := "Box") rfl rfl) (.here _ _)
example := C95_sequence names boxEnv 5 {} boxClass (by simp [DistinctExt, boxClass, FieldDef.extName]) (.inst [(.str "items", .list [.int 1, .int 2])]) [] ["items"]
  (.dict [(.str "items", .list [.int 1, .int 2])]) rfl
example := C95_failure (.basic fun _ _ _ _ => St.pure (.ok (.int 2))) boxEnv 5 {} boxClass (by simp [DistinctExt, boxClass, FieldDef.extName])
  (.inst [(.str "items", .list [.int 1, .int 2])]) () () (.other "TypeError") rfl

end Verif
