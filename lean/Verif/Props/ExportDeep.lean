import Verif.Samples
import Verif.Props.Deep
import Verif.Props.Export
import Verif.Props.Deep

/-! # Export properties at every nesting depth (C23, C25, C28, C29, C31) -/
namespace Verif

/-! ## Specification vocabulary -/

/-- `out` is an export of a value of field type `f` in which, at every depth, a nested
model appears as a dict whose keys are external names of fields `fd` of its class with
`P class fd`. -/
inductive Exported (env : Env) (P : ClassDef → FieldDef → Prop) : Field → Val → Prop
  | leaf {l o w} : Exported env P (.mk (.leaf l) o) w
  | list {inner mn mx o xs} : (∀ x ∈ xs, Exported env P inner x) →
      Exported env P (.mk (.list inner mn mx) o) (.list xs)
  | dict {inner co o kvs} : (∀ kv ∈ kvs, Exported env P inner kv.2) →
      Exported env P (.mk (.dict inner co) o) (.dict kvs)
  | model {t o k c kvs} (g : Key × Val → FieldDef) :
      ((∃ cls, t = .model cls) ∨ ∃ p, t = .poly p) → env.cls k = some c →
      (∀ kv ∈ kvs, g kv ∈ c.fields ∧ kv.1 = .str (g kv).extName ∧ P c (g kv)) →
      (∀ kv ∈ kvs, kv.2 ≠ .none → Exported env P (g kv).field kv.2) →
      Exported env P (.mk t o) (.dict kvs)

/-- JSON-compatible values: only dict, list, str, int, float, bool and `None`. -/
inductive Json : Val → Prop
  | none : Json .none
  | bool (b) : Json (.bool b)
  | int (i) : Json (.int i)
  | flt (f) : Json (.flt f)
  | str (s) : Json (.str s)
  | list {xs} : (∀ x ∈ xs, Json x) → Json (.list xs)
  | dict {kvs} : (∀ kv ∈ kvs, Json kv.2) → Json (.dict kvs)

mutual
/-- `Below v w`: `w` is `v` with possibly more dict keys and list items, at any depth. -/
inductive Below : Val → Val → Prop
  | refl (v) : Below v v
  | list {xs ys} : BelowList xs ys → Below (.list xs) (.list ys)
  | dict {d d'} (g : Key × Val → Val) : (∀ kv ∈ d, (kv.1, g kv) ∈ d') →
      (∀ kv ∈ d, Below kv.2 (g kv)) → Below (.dict d) (.dict d')
/-- The items of the first list occur, in order, in the second (up to `Below`). -/
inductive BelowList : List Val → List Val → Prop
  | nil : BelowList [] []
  | skip {xs y ys} : BelowList xs ys → BelowList xs (y :: ys)
  | cons {x y xs ys} : Below x y → BelowList xs ys → BelowList (x :: xs) (y :: ys)
end

/-! ## Lemmas -/

theorem exportItems_mem {f : Val → R Val} {hide : Val → Bool} {xs ys : List Val}
    (h : exportItems f hide xs = .ok ys) : ∀ y ∈ ys, ∃ x ∈ xs, f x = .ok y := by
  induction xs generalizing ys with
  | nil => simp [exportItems] at h; subst h; simp
  | cons x xs ih =>
    simp only [exportItems] at h
    split at h
    · cases h
    · rename_i y hy
      split at h
      · cases h
      · rename_i ys' hys
        have := ih hys
        split at h <;> injection h with h <;> subst h
        · intro z hz; obtain ⟨a, ha, hb⟩ := this z hz; exact ⟨a, by simp [ha], hb⟩
        · intro z hz
          rcases List.mem_cons.1 hz with rfl | hz
          · exact ⟨x, by simp, hy⟩
          · obtain ⟨a, ha, hb⟩ := this z hz; exact ⟨a, by simp [ha], hb⟩

theorem exportPairs_mem {f : Val → R Val} {hide : Val → Bool} {xs : List (Key × Val)} {ys : Data}
    (h : exportPairs f hide xs = .ok ys) : ∀ kv ∈ ys, ∃ x, (kv.1, x) ∈ xs ∧ f x = .ok kv.2 := by
  induction xs generalizing ys with
  | nil => simp [exportPairs] at h; subst h; simp
  | cons kx xs ih =>
    obtain ⟨k, x⟩ := kx
    simp only [exportPairs] at h
    split at h
    · cases h
    · rename_i y hy
      split at h
      · cases h
      · rename_i ys' hys
        have := ih hys
        split at h <;> injection h with h <;> subst h
        · intro z hz; obtain ⟨a, ha, hb⟩ := this z hz; exact ⟨a, by simp [ha], hb⟩
        · intro z hz
          rcases List.mem_cons.1 hz with rfl | hz
          · exact ⟨x, by simp, hy⟩
          · obtain ⟨a, ha, hb⟩ := this z hz; exact ⟨a, by simp [ha], hb⟩

/-- Which model a compound export of a model field goes through. -/
theorem exportF_model {rec : ERec} {env : Env} {ctx : ECtx} {owner : Nat} {t : FType} {o : FieldOpts}
    {v w : Val} (ht : (∃ cls, t = .model cls) ∨ ∃ p, t = .poly p)
    (h : exportF rec env ctx owner (.mk t o) v = .ok w) :
    ∃ k c src d, env.cls k = some c ∧ exportLoop rec ctx c src = .ok d ∧ w = .dict d ∧
      ((∃ x, v = .inst k x ∧ src = .inst x) ∨
       ((∃ cls, t = .model cls ∧ k = cls) ∧
        ((∃ x, v = .dict x ∧ src = .map x) ∨ src = .other ∧ (∀ x, v ≠ .dict x) ∧ ∀ k x, v ≠ .inst k x))) := by
  have hm : ∀ {c src}, exportModel rec ctx c src = .ok w → ∃ d, exportLoop rec ctx c src = .ok d ∧ w = .dict d := by
    intro c src hm
    unfold exportModel at hm
    split at hm
    · cases hm
    · rename_i d hd; injection hm with hm; exact ⟨d, hd, hm.symm⟩
  rcases ht with ⟨cls, rfl⟩ | ⟨p, rfl⟩
  · simp only [exportF, Field.ty_mk] at h
    split at h
    · rename_i k d
      split at h
      · rename_i c hc
        obtain ⟨d', h1, h2⟩ := hm h
        exact ⟨k, c, _, d', hc, h1, h2, Or.inl ⟨_, rfl, rfl⟩⟩
      · cases h
    · rename_i d
      split at h
      · rename_i c hc
        obtain ⟨d', h1, h2⟩ := hm h
        exact ⟨cls, c, _, d', hc, h1, h2, Or.inr ⟨⟨cls, rfl, rfl⟩, Or.inl ⟨_, rfl, rfl⟩⟩⟩
      · cases h
    · rename_i hni hnd
      split at h
      · rename_i c hc
        obtain ⟨d', h1, h2⟩ := hm h
        exact ⟨cls, c, _, d', hc, h1, h2,
          Or.inr ⟨⟨cls, rfl, rfl⟩, Or.inr ⟨rfl, fun x hx => hnd x hx, fun k x hx => hni k x hx⟩⟩⟩
      · cases h
  · simp only [exportF, Field.ty_mk] at h
    split at h
    · split at h
      · split at h
        · rename_i c hc
          obtain ⟨d', h1, h2⟩ := hm h
          exact ⟨_, c, _, d', hc, h1, h2, Or.inl ⟨_, rfl, rfl⟩⟩
        · cases h
      · cases h
    · cases h

/-- The rule of C25 for field `fd` of class `c`. -/
def Permitted (ctx : ECtx) (c : ClassDef) (fd : FieldDef) : Prop :=
  ∃ flt src, RoleInForce ctx c flt ∧ Passes flt src fd

theorem exportLoop_permitted {rec : ERec} {ctx : ECtx} {c : ClassDef} {src : Src} {d : Data}
    (h : exportLoop rec ctx c src = .ok d) {kv : Key × Val} (hkv : kv ∈ d) :
    ∃ fd, fd ∈ c.fields ∧ kv.1 = .str fd.extName ∧ Permitted ctx c fd ∧
      (kv.2 ≠ .none → ∃ v, rec c.exportLevel fd.field v = .ok kv.2) := by
  obtain ⟨flt, fd, h1, h2, h3, h4⟩ := exportLoop_mem h hkv
  obtain ⟨h5, _, u, h6, h7, h8⟩ := exportField_some h4
  have hin : RoleInForce ctx c flt := by
    rcases roleFilter_spec ctx c with ⟨_, hr⟩ | ⟨_, g, hg, hin⟩
    · rw [hr] at h1; cases h1
    · rw [h1] at hg; injection hg with hg; subst hg; exact hin
  refine ⟨fd, h2, h3, ⟨flt, src, hin, h5⟩, fun hn => ?_⟩
  cases he : (src.read fd).isEmpty with
  | true =>
    rw [he] at h6
    simp only [if_true, Except.ok.injEq] at h6
    subst h6
    rw [Val.isEmpty_iff] at he
    rcases he with he | he <;> rw [he] at h8 <;> exact absurd h8 hn
  | false =>
    rw [he] at h6
    simp only [Bool.false_eq_true, if_false] at h6
    cases hu : u.isUndef with
    | true => rw [nullify, hu] at h8; exact absurd h8 hn
    | false => rw [nullify, hu] at h8; exact ⟨_, by rw [h6, h8]; rfl⟩

theorem exported_model {env : Env} {P : ClassDef → FieldDef → Prop} {t : FType} {o : FieldOpts} {k : String}
    {c : ClassDef} {d : Data} (ht : (∃ cls, t = .model cls) ∨ ∃ p, t = .poly p) (hc : env.cls k = some c)
    (h : ∀ kv ∈ d, ∃ fd, fd ∈ c.fields ∧ kv.1 = .str fd.extName ∧ P c fd ∧
      (kv.2 ≠ .none → Exported env P fd.field kv.2)) : Exported env P (.mk t o) (.dict d) := by
  classical
  refine .model (fun kv => if hk : kv ∈ d then (h kv hk).choose else ⟨"", default, none, none⟩) ht hc ?_ ?_
  · intro kv hkv
    simp only [dif_pos hkv]
    have := (h kv hkv).choose_spec
    exact ⟨this.1, this.2.1, this.2.2.1⟩
  · intro kv hkv hn
    simp only [dif_pos hkv]
    exact (h kv hkv).choose_spec.2.2.2 hn

theorem fieldExport_permitted {env : Env} {ctx : ECtx} :
    ∀ n owner f v w, fieldExport env ctx n owner f v = .ok w → Exported env (Permitted ctx) f w := by
  intro n
  induction n with
  | zero => intro owner f v w h; cases h
  | succ n ih =>
    intro owner f v w h
    obtain ⟨t, o⟩ := f
    simp only [fieldExport] at h
    have model : ((∃ cls, t = .model cls) ∨ ∃ p, t = .poly p) → Exported env (Permitted ctx) (.mk t o) w := by
      intro ht
      obtain ⟨k, c, src, d, hc, hl, rfl, _⟩ := exportF_model ht h
      refine exported_model ht hc fun kv hkv => ?_
      obtain ⟨fd, h1, h2, h3, h4⟩ := exportLoop_permitted hl hkv
      exact ⟨fd, h1, h2, h3, fun hn => by obtain ⟨v, hv⟩ := h4 hn; exact ih _ _ _ _ hv⟩
    cases t with
    | leaf l => exact .leaf
    | list inner mn mx =>
      simp only [exportF, Field.ty_mk] at h
      split at h
      · injection h with h; subst h; exact .list (by simp)
      · split at h
        · cases h
        · split at h
          · cases h
          · rename_i ys hys
            injection h with h; subst h
            refine .list fun y hy => ?_
            obtain ⟨x, _, hx⟩ := exportItems_mem hys y hy
            exact ih _ _ _ _ hx
    | dict inner co =>
      simp only [exportF, Field.ty_mk] at h
      split at h
      · injection h with h; subst h; exact .dict (by simp)
      · split at h
        · cases h
        · split at h
          · cases h
          · rename_i ys hys
            injection h with h; subst h
            refine .dict fun y hy => ?_
            obtain ⟨x, _, hx⟩ := exportPairs_mem hys y hy
            exact ih _ _ _ _ hx
    | model cls => exact model (Or.inl ⟨cls, rfl⟩)
    | poly p => exact model (Or.inr ⟨p, rfl⟩)

theorem Exported.mono {env : Env} {P Q : ClassDef → FieldDef → Prop} (hpq : ∀ c fd, P c fd → Q c fd) {f : Field}
    {w : Val} (h : Exported env P f w) : Exported env Q f w := by
  induction h with
  | leaf => exact .leaf
  | list _ ih => exact .list ih
  | dict _ ih => exact .dict ih
  | model g ht hc h1 _ ih =>
    exact .model g ht hc (fun kv hkv => ⟨(h1 kv hkv).1, (h1 kv hkv).2.1, hpq _ _ (h1 kv hkv).2.2⟩) ih

/-! ## Theorems -/

/-- **C25** (nested). The role rule is applied at every nested model: at every depth of the
exported data, only fields that the role in force for that nested class lets through. -/
theorem C25_role_rule_everywhere (env : Env) (n : Nat) (ctx : ECtx) (c : ClassDef) (src : Src) (d : Data)
    (h : runExport env n ctx c src = .ok d) (kv : Key × Val) (hkv : kv ∈ d) :
    ∃ fd ∈ c.fields, kv.1 = .str fd.extName ∧ Permitted ctx c fd ∧
      (kv.2 ≠ .none → Exported env (Permitted ctx) fd.field kv.2) := by
  obtain ⟨fd, h1, h2, h3, h4⟩ := exportLoop_permitted h hkv
  exact ⟨fd, h1, h2, h3, fun hn => by obtain ⟨v, hv⟩ := h4 hn; exact fieldExport_permitted _ _ _ _ _ hv⟩

/-- **C23** (nested). With a whitelist passed as a callable role, no key at any depth of the
output belongs to a field outside the list. -/
theorem C23_whitelist_everywhere (env : Env) (n : Nat) (ctx : ECtx) (c : ClassDef) (src : Src) (d : Data)
    (names : List String) (hrole : ctx.role = some (.call (Role.fn ⟨.white, names⟩)))
    (h : runExport env n ctx c src = .ok d) (kv : Key × Val) (hkv : kv ∈ d) :
    ∃ fd ∈ c.fields, kv.1 = .str fd.extName ∧ fd.name ∈ names ∧
      (kv.2 ≠ .none → Exported env (fun _ fd => fd.name ∈ names) fd.field kv.2) := by
  have key : ∀ c fd, Permitted ctx c fd → fd.name ∈ names := by
    rintro c fd ⟨flt, src, hin, hp⟩
    have : flt = some (Role.fn ⟨.white, names⟩) := roleInForce_unique hin (.callable hrole)
    subst this
    have := hp _ rfl
    unfold Role.fn Role.skip at this
    simp only [] at this
    split at this
    · simpa using this
    · cases this
  obtain ⟨fd, h1, h2, h3, h4⟩ := C25_role_rule_everywhere env n ctx c src d h kv hkv
  exact ⟨fd, h1, h2, key _ _ h3, fun hn => (h4 hn).mono key⟩

/-! ## C31 -/

/-- A scalar value as conversion leaves it. -/
def Converted (l : Leaf) (v : Val) : Prop := v = .none ∨ ∃ app v0, l.toNative app v0 = .ok v

/-- A scalar type exports the values it produces (and `None`) to JSON values. -/
def LeafJson (l : Leaf) : Prop := ∀ app v w, Converted l v → l.toPrimitive app v = .ok w → Json w

/-- Values of scalar types are converted; values of model types are model instances. -/
def Native (_ : Bool) (f : Field) (v : Val) : Prop :=
  match f.ty with
  | .leaf l => Converted l v
  | .model _ => v.isEmpty = true ∨ ∃ k d, v = .inst k d
  | _ => True

/-- Every value in `v`, at any depth, is a converted value of its declared type. -/
abbrev NativeTree (env : Env) (f : Field) (v : Val) : Prop :=
  Everywhere env Native (fun _ => True) false true f v

/-- Class names are consistent and calculated fields return values of their type. -/
structure SaneClass (env : Env) (c : ClassDef) : Prop where
  getters : ∀ fd ∈ c.fields, ∀ g, fd.fget = some g → ∀ d v, g d = some v →
    v.isEmpty = true ∨ NativeTree env fd.field v
  setters : ∀ fd ∈ c.fields, fd.fget = none → fd.fset = none

/-- The classes of the class table are registered under their names and sane. -/
def Env.Sane (env : Env) : Prop := ∀ k c, env.cls k = some c → c.name = k ∧ SaneClass env c

theorem everywhere_bool {env : Env} {A : FieldDef → Prop} {p : Bool} {b b' : Bool} {f : Field} {v : Val}
    (h : Everywhere env Native A p b f v) : Everywhere env Native A p b' f v := by
  cases h with
  | empty h1 h2 => exact .empty h1 h2
  | leaf h => exact .leaf h
  | list h1 h2 => exact .list h1 h2
  | dict h1 h2 => exact .dict h1 h2
  | model h1 h2 h3 h4 h5 h6 h7 => exact .model h1 h2 h3 h4 h5 h6 h7
  | prebuilt h1 h2 => exact .prebuilt h1 h2

theorem isEmpty_false_ne {v : Val} (h : v.isEmpty = false) : v ≠ .none ∧ v ≠ .undef := by
  constructor <;> rintro rfl <;> cases h

theorem exportLoop_json {env : Env} {ctx : ECtx} {n : Nat}
    (ih : ∀ owner f v w, f.AllLeaves LeafJson → (v = .none ∨ NativeTree env f v) →
      fieldExport env ctx n owner f v = .ok w → Json w ∧ w ≠ .undef)
    {c : ClassDef} (hc : SaneClass env c) (hl : ∀ fd ∈ c.fields, fd.field.AllLeaves LeafJson)
    {src : Src} {d : Data}
    (hsrc : ∀ x, src = .inst x → ∀ fd ∈ c.fields, fd.fset = none → ∀ w, Dict.get? x (.str fd.name) = some w →
      NativeTree env fd.field w)
    (hmap : ∀ x, src ≠ .map x)
    (h : exportLoop (fieldExport env ctx n) ctx c src = .ok d) : ∀ kv ∈ d, Json kv.2 := by
  intro kv hkv
  obtain ⟨flt, fd, h1, h2, h3, h4⟩ := exportLoop_mem h hkv
  obtain ⟨h5, _, u, h6, h7, h8⟩ := exportField_some h4
  cases he : (src.read fd).isEmpty with
  | true =>
    rw [he] at h6
    simp only [if_true, Except.ok.injEq] at h6
    rw [Val.isEmpty_iff, h6] at he
    rcases he with rfl | rfl <;> rw [h8] <;> exact .none
  | false =>
    rw [he] at h6
    simp only [Bool.false_eq_true, if_false] at h6
    have hn : NativeTree env fd.field (src.read fd) := by
      cases src with
      | other => cases he
      | map x => exact absurd rfl (hmap x)
      | inst x =>
        simp only [Src.read] at he ⊢
        cases hg : fd.fget with
        | some g =>
          rw [hg] at he
          simp only [] at he ⊢
          cases hgd : g x with
          | none => rw [hgd] at he; cases he
          | some v =>
            rw [hgd] at he
            simp only [Option.getD_some] at he ⊢
            rcases hc.getters fd h2 g hg x v hgd with h | h
            · rw [h] at he; cases he
            · exact h
        | none =>
          rw [hg] at he
          simp only [rawValue] at he ⊢
          cases hgd : Dict.get? x (.str fd.name) with
          | none => rw [hgd] at he; cases he
          | some v => exact hsrc x rfl fd h2 (hc.setters fd h2 hg) v hgd
    have := ih _ _ _ _ (hl fd h2) (Or.inr hn) h6
    rw [h8, nullify]
    cases hu : u.isUndef with
    | true => exact .none
    | false => exact this.1

theorem fieldExport_json {env : Env} (hs : env.Sane) (hlv : env.AllLeaves LeafJson) {ctx : ECtx}
    (hf : ctx.fmt = .primitive) :
    ∀ n owner f v w, f.AllLeaves LeafJson → (v = .none ∨ NativeTree env f v) →
      fieldExport env ctx n owner f v = .ok w → Json w ∧ w ≠ .undef := by
  intro n
  induction n with
  | zero => intro owner f v w _ _ h; cases h
  | succ n ih =>
    intro owner f v w hl hv h
    obtain ⟨t, o⟩ := f
    simp only [fieldExport] at h
    have model : ((∃ cls, t = .model cls) ∨ ∃ p, t = .poly p) → Json w ∧ w ≠ .undef := by
      intro ht
      obtain ⟨k, c, src, d, hc, hx, rfl, hsrc⟩ := exportF_model ht h
      refine ⟨.dict (exportLoop_json ih (hs k c hc).2 (hlv k c hc) ?_ ?_ hx), by simp⟩
      · intro x hsx fd hfd hp w' hw'
        subst hsx
        clear h
        rcases hsrc with ⟨_, rfl, hsx⟩ | ⟨_, ⟨_, _, h⟩ | ⟨h, _⟩⟩
        · injection hsx with hsx
          subst hsx
          rcases hv with h | hv
          · cases h
          · cases hv with
            | empty h1 _ => cases h1
            | leaf _ => simp at ht
            | prebuilt h _ => cases h
            | model _ _ hk' hvd _ _ h7 =>
              rename_i k' c' d'
              have hn' := (hs _ _ hk').1
              rcases hvd with hvd | hvd
              · injection hvd with e1 e2
                rw [hn'] at e1
                subst e1 e2
                rw [hc] at hk'; injection hk' with hk'; subst hk'
                exact h7 fd hfd hp w' hw'
              · cases hvd
        · cases h
        · cases h
      · intro x hsx
        subst hsx
        rcases hsrc with ⟨_, _, h⟩ | ⟨⟨cls, rfl, _⟩, ⟨y, rfl, _⟩ | ⟨h, _⟩⟩
        · cases h
        · rcases hv with h | hv
          · cases h
          · cases hv with
            | empty h1 _ => cases h1
            | model hq _ _ _ _ _ _ =>
              simp only [Native, Field.ty_mk] at hq
              rcases hq with h | ⟨_, _, h⟩ <;> cases h
        · cases h
    cases t with
    | leaf l =>
      simp only [exportF, Field.ty_mk, hf] at h
      have hcv : Converted l v := by
        rcases hv with rfl | hv
        · exact Or.inl rfl
        · cases hv with
          | empty _ hq => exact hq
          | leaf hq => exact hq
          | model _ ht _ _ _ _ _ => simp at ht
      have := (show LeafJson l from hl) _ _ _ hcv h
      refine ⟨this, ?_⟩
      rintro rfl; cases this
    | list inner mn mx =>
      simp only [exportF, Field.ty_mk] at h
      split at h
      · injection h with h; subst h; exact ⟨.list (by simp), by simp⟩
      · split at h
        · cases h
        · rename_i xs hxs
          split at h
          · cases h
          · rename_i ys hys
            injection h with h; subst h
            refine ⟨.list fun y hy => ?_, by simp⟩
            obtain ⟨x, hx, hxy⟩ := exportItems_mem hys y hy
            refine (ih _ _ _ _ (by simpa [Field.AllLeaves, FType.AllLeaves] using hl) ?_ hxy).1
            rcases hv with rfl | hv
            · cases hxs
            · cases hv with
              | empty h1 _ =>
                rw [Val.isEmpty_iff] at h1
                rcases h1 with rfl | rfl <;> cases hxs
              | list _ h2 =>
                injection hxs with hxs; subst hxs
                exact Or.inr (everywhere_bool (h2 x hx))
              | model _ ht _ _ _ _ _ => simp at ht
    | dict inner co =>
      simp only [exportF, Field.ty_mk] at h
      split at h
      · injection h with h; subst h; exact ⟨.dict (by simp), by simp⟩
      · split at h
        · cases h
        · rename_i xs hxs
          split at h
          · cases h
          · rename_i ys hys
            injection h with h; subst h
            refine ⟨.dict fun y hy => ?_, by simp⟩
            obtain ⟨x, hx, hxy⟩ := exportPairs_mem hys y hy
            refine (ih _ _ _ _ (by simpa [Field.AllLeaves, FType.AllLeaves] using hl) ?_ hxy).1
            rcases hv with rfl | hv
            · cases hxs
            · cases hv with
              | empty h1 _ =>
                rw [Val.isEmpty_iff] at h1
                rcases h1 with rfl | rfl <;> cases hxs
              | dict _ h2 =>
                injection hxs with hxs; subst hxs
                exact Or.inr (everywhere_bool (h2 _ hx))
              | model _ ht _ _ _ _ _ => simp at ht
    | model cls => exact model (Or.inl ⟨cls, rfl⟩)
    | poly p => exact model (Or.inr ⟨p, rfl⟩)

/-- **C31.** `to_primitive` of an instance whose values, at every depth, are converted values
of their types yields only dict, list, str, int, float, bool and `None`, provided each
scalar type exports its own values to such values. -/
theorem C31_primitive_is_json (env : Env) (n : Nat) (ctx : ECtx) (c : ClassDef) (x d : Data)
    (hf : ctx.fmt = .primitive) (hs : env.Sane) (hlv : env.AllLeaves LeafJson) (hc : SaneClass env c)
    (hcl : ∀ fd ∈ c.fields, fd.field.AllLeaves LeafJson)
    (hx : ∀ fd ∈ c.fields, fd.fset = none → ∀ w, Dict.get? x (.str fd.name) = some w → NativeTree env fd.field w)
    (h : runExport env n ctx c (.inst x) = .ok d) : Json (.dict d) := by
  refine .dict (exportLoop_json (fieldExport_json hs hlv hf n) hc hcl ?_ (by simp) h)
  intro y hy; injection hy with hy; subst hy; exact hx

/-- The value does not contain the `Undefined` marker, at any depth. -/
inductive NoUndef : Val → Prop
  | list {xs} : (∀ x ∈ xs, NoUndef x) → NoUndef (.list xs)
  | dict {kvs} : (∀ kv ∈ kvs, NoUndef kv.2) → NoUndef (.dict kvs)
  | inst {k d} : (∀ kv ∈ d, NoUndef kv.2) → NoUndef (.inst k d)
  | other {v} : (∀ xs, v ≠ .list xs) → (∀ kvs, v ≠ .dict kvs) → (∀ k d, v ≠ .inst k d) → v ≠ .undef → NoUndef v

/-- `Native`, but a scalar may also be `Undefined`. -/
def Native0 (_ : Bool) (f : Field) (v : Val) : Prop :=
  match f.ty with
  | .leaf l => v.isEmpty = true ∨ ∃ app v0, l.toNative app v0 = .ok v
  | .model _ => v.isEmpty = true ∨ ∃ k d, v = .inst k d
  | _ => True

theorem NoUndef.ne {v : Val} (h : NoUndef v) : v ≠ .undef := by
  rintro rfl; cases h with | other _ _ _ h => exact h rfl

theorem native_of_noUndef {env : Env} {A : FieldDef → Prop} {ps b : Bool} {f : Field} {v : Val}
    (h : Everywhere env Native0 A ps b f v) (hn : NoUndef v) : Everywhere env Native A ps b f v := by
  have key : ∀ b f v, NoUndef v → Native0 b f v → Native b f v := by
    intro b f v hn h
    unfold Native Native0 at *
    split
    · rename_i l hl
      rw [hl] at h
      rcases h with h | h
      · rcases (Val.isEmpty_iff v).1 h with rfl | rfl
        · exact Or.inl rfl
        · exact absurd rfl hn.ne
      · exact Or.inr h
    · rename_i hl; rw [hl] at h; exact h
    · trivial
  induction h with
  | empty h1 h2 => exact .empty h1 (key _ _ _ hn h2)
  | leaf h => exact .leaf (key _ _ _ hn h)
  | list h1 h2 ih =>
    refine .list (key _ _ _ hn h1) fun x hx => ih x hx ?_
    cases hn with
    | list h => exact h x hx
    | other h _ _ _ => exact absurd rfl (h _)
  | dict h1 h2 ih =>
    refine .dict (key _ _ _ hn h1) fun x hx => ih x hx ?_
    cases hn with
    | dict h => exact h x hx
    | other _ h _ _ => exact absurd rfl (h _)
  | model h1 h2 h3 h4 h5 h6 h7 ih =>
    refine .model (key _ _ _ hn h1) h2 h3 h4 h5 h6 fun fd hfd hs w hw => ih fd hfd hs w hw ?_
    have := Dict.mem_of_get? hw
    rcases h4 with rfl | rfl
    · cases hn with
      | inst h => exact h _ this
      | other _ _ h _ => exact absurd rfl (h _ _)
    · cases hn with
      | dict h => exact h _ this
      | other _ h _ _ => exact absurd rfl (h _)
  | prebuilt h1 h2 => exact .prebuilt h1 h2

theorem fieldConv_native {env : Env} {ctx : Ctx} (hpure : env.Pure) (hmode : ctx.conv = .imp ∨ ctx.convert = true)
    (hoo : ctx.convert = true ∧ ctx.oo = true) {n : Nat} {b : Bool} {f : Field} {v w : Val}
    (hl : f.AllLeaves NoOverride) (h : fieldConv env n ctx b f v = .ok w) : Native0 b f w := by
  cases n with
  | zero => cases h
  | succ n =>
    simp only [fieldConv] at h
    cases he : v.isEmpty with
    | true =>
      have := fieldConvF_empty he h
      subst this
      unfold Native0
      obtain ⟨t, o⟩ := f
      cases t with
      | leaf l => exact Or.inl he
      | model c => exact Or.inl he
      | _ => trivial
    | false =>
      obtain ⟨t, o⟩ := f
      cases t with
      | leaf l =>
        right
        unfold fieldConvF at h
        split at h
        · cases h
        · rw [he] at h
          simp only [Bool.false_eq_true, if_false] at h
          split at h
          · exact ⟨_, _, h⟩
          · rename_i hc
            rcases hmode with hm | hm
            · rw [hm] at hc; cases hc
            · simp only [validateF, FType.override, Field.ty_mk] at h
              have hno : l.override = none := hl
              rw [hno, hm] at h
              simp only [if_true] at h
              split at h
              · cases h
              · rename_i w' hw'
                rw [(finishValidation_ok h).1]
                exact ⟨_, _, hw'⟩
      | model cls =>
        right
        have hc := fieldConvF_compound hmode he rfl h
        simp only [convertF, Field.ty_mk] at hc
        unfold modelConv at hc
        have hinto : ∀ c raw bi w, modelInto (fieldConv env n) env ctx c raw bi = .ok w → ∃ k d, w = .inst k d := by
          intro c raw bi w hm
          unfold modelInto at hm
          rw [hoo.1, hoo.2] at hm
          simp only [Bool.and_self, if_true] at hm
          unfold newInstance at hm
          split at hm
          · cases hm
          · injection hm with hm; exact ⟨_, _, hm.symm⟩
        split at hc
        · split at hc
          · split at hc
            · exact hinto _ _ _ _ hc
            · cases hc
          · cases hc
        · split at hc
          · exact hinto _ _ _ _ hc
          · cases hc
        · cases hc
      | _ => trivial

/-- **C31** (end to end). Importing with validation and exporting the new instance yields JSON
values only, whatever the input (unless someone hides the `Undefined` marker inside a list). -/
theorem C31_imported_instance_is_json (env : Env) (n m : Nat) (ctx : Ctx) (ectx : ECtx) (c : ClassDef)
    (mu : Mut) (raw x d : Data) (hf : ectx.fmt = .primitive) (hs : env.Sane) (hwf : env.WF) (hpure : env.Pure)
    (hlj : env.AllLeaves fun l => NoOverride l ∧ LeafJson l)
    (hc : c.WF) (hpc : PureValidators c) (hsc : SaneClass env c)
    (hcl : ∀ fd ∈ c.fields, fd.field.AllLeaves fun l => NoOverride l ∧ LeafJson l)
    (htr : ctx.trusted = []) (hconv : ctx.conv = .val) (hval : ctx.validate = true)
    (hoo : ctx.convert = true ∧ ctx.oo = true)
    (himp : runValidate env n ctx c mu raw = .ok x) (hund : ∀ kv ∈ x, NoUndef kv.2)
    (hexp : runExport env m ectx c (.inst x) = .ok d) : Json (.dict d) := by
  have mono : ∀ f : Field, f.AllLeaves (fun l => NoOverride l ∧ LeafJson l) →
      f.AllLeaves NoOverride ∧ f.AllLeaves LeafJson := by
    intro f
    apply Field.rec (motive_1 := fun t => t.AllLeaves (fun l => NoOverride l ∧ LeafJson l) →
        t.AllLeaves NoOverride ∧ t.AllLeaves LeafJson)
      (motive_2 := fun f => f.AllLeaves (fun l => NoOverride l ∧ LeafJson l) →
        f.AllLeaves NoOverride ∧ f.AllLeaves LeafJson)
    · intro l h; exact h
    · intro f _ _ ih h; exact ih h
    · intro f _ ih h; exact ih h
    · intro _ _; exact ⟨trivial, trivial⟩
    · intro _ _; exact ⟨trivial, trivial⟩
    · intro t o ih h; exact ih h
  refine C31_primitive_is_json env m ectx c x d hf hs (fun k c h fd hfd => (mono _ (hlj k c h fd hfd)).2) hsc
    (fun fd h => (mono _ (hcl fd h)).2) ?_ hexp
  intro fd hfd hp w hw
  obtain ⟨raw', errs, hb⟩ := successful_body (Or.inr ⟨hpc, himp⟩)
  have := (everywhere_body (P := NoOverride) (Q := Native0) (A := fun _ => True) hwf hpure
    (fun k c h fd hfd => (mono _ (hlj k c h fd hfd)).1) ctx (Or.inl htr) (Or.inr hoo.1) ?_
    (fun _ _ _ _ _ _ _ _ => trivial) hc (fun fd h => (mono _ (hcl fd h)).1) hb hfd hp (by rw [htr]; simp)).2 w hw
  · exact native_of_noUndef (by simpa [hval] using this) (hund _ (Dict.mem_of_get? hw))
  · intro n m b f v w hl h
    exact fieldConv_native (ctx := { ctx with trusted := [], mapping := m }) hpure (Or.inr hoo.1) hoo hl h

/-! ## C28 -/

theorem Below.isEmpty {w w' : Val} (h : Below w w') : w'.isEmpty = w.isEmpty := by
  cases h <;> rfl

theorem Below.isUndef {w w' : Val} (h : Below w w') : w'.isUndef = w.isUndef := by
  cases h <;> rfl

theorem BelowList.len {xs ys : List Val} (h : BelowList xs ys) : xs.length ≤ ys.length := by
  induction ys generalizing xs with
  | nil => cases h; exact Nat.le_refl _
  | cons y ys ih =>
    cases h with
    | skip h => have := ih h; simp; omega
    | cons _ h => have := ih h; simp; omega

theorem Below.empty_len {w w' : Val} (h : Below w w') : pyLen w' = 0 → pyLen w = 0 := by
  cases h with
  | refl => exact id
  | list h => intro h0; have := h.len; simp only [pyLen] at *; omega
  | @dict d d' g h _ =>
    intro h0
    simp only [pyLen] at *
    cases d with
    | nil => rfl
    | cons a d =>
      have := h a (by simp)
      have h0 := List.eq_nil_of_length_eq_zero h0
      rw [h0] at this; cases this

theorem hidden_mono {l l' : Nat} (hl : l ≤ l') {f : Field} {w w' : Val} (hb : Below w w')
    (h : hidden l f w = false) : hidden l' f w' = false := by
  unfold hidden emptyCompound at *
  rw [hb.isEmpty, hb.isUndef]
  cases hu : w.isUndef with
  | true => rw [hu] at h; simp at h ⊢; omega
  | false =>
    cases he : w.isEmpty with
    | true => rw [hu, he] at h; simp at h ⊢; omega
    | false =>
      rw [hu, he] at h
      simp only [Bool.false_eq_true, if_false] at h ⊢
      by_cases hx : f.ty.isCompound = true
      · by_cases h0 : pyLen w' = 0
        · have h1 := hb.empty_len h0
          simp [hx, h0, h1] at h ⊢; omega
        · simp [h0]
      · simp [hx]

theorem hiddenItem_mono {l l' : Nat} (hl : l ≤ l') {f : Field} {w w' : Val} (hb : Below w w')
    (h : hiddenItem l f w = false) : hiddenItem l' f w' = false := by
  by_cases hn : w = .none
  · subst hn
    cases hb
    simp [hiddenItem] at h ⊢; omega
  · have hn' : w' ≠ .none := by
      rintro rfl
      have := hb.isEmpty
      cases hb; exact hn rfl
    have e : ∀ (l : Nat) (w : Val), w ≠ .none → hiddenItem l f w = (emptyCompound f w && decide (l ≤ NONEMPTY)) := by
      intro l w hw
      unfold hiddenItem
      split
      · exact absurd rfl hw
      · rfl
    rw [e _ _ hn] at h
    rw [e _ _ hn']
    unfold emptyCompound at *
    by_cases hx : f.ty.isCompound = true
    · by_cases h0 : pyLen w' = 0
      · have h1 := hb.empty_len h0
        simp [hx, h0, h1] at h ⊢; omega
      · simp [h0]
    · simp [hx]

/-- Two runs: same exception, or results related by `Below`. -/
def BelowR : R Val → R Val → Prop
  | .ok w, .ok w' => Below w w'
  | .error e, .error e' => e = e'
  | _, _ => False

theorem exportItems_below {f f' : Val → R Val} {hd hd' : Val → Bool} (hf : ∀ v, BelowR (f v) (f' v))
    (hh : ∀ w w', Below w w' → hd w = false → hd' w' = false) (xs : List Val) :
    (∃ ys ys', exportItems f hd xs = .ok ys ∧ exportItems f' hd' xs = .ok ys' ∧ BelowList ys ys') ∨
    ∃ e, exportItems f hd xs = .error e ∧ exportItems f' hd' xs = .error e := by
  induction xs with
  | nil => exact Or.inl ⟨[], [], rfl, rfl, .nil⟩
  | cons x xs ih =>
    have hx := hf x
    simp only [exportItems]
    cases h1 : f x with
    | error e =>
      cases h2 : f' x with
      | error e' => rw [h1, h2] at hx; exact Or.inr ⟨e, rfl, by rw [show e = e' from hx]⟩
      | ok _ => rw [h1, h2] at hx; cases hx
    | ok y =>
      cases h2 : f' x with
      | error e' => rw [h1, h2] at hx; cases hx
      | ok y' =>
        rw [h1, h2] at hx
        have hb : Below y y' := hx
        rcases ih with ⟨ys, ys', e1, e2, hbl⟩ | ⟨e, e1, e2⟩
        · left
          rw [e1, e2]
          simp only []
          cases hy : hd y with
          | true =>
            cases hy' : hd' y' with
            | true => exact ⟨_, _, rfl, rfl, hbl⟩
            | false => exact ⟨_, _, rfl, rfl, .skip hbl⟩
          | false =>
            rw [hh _ _ hb hy]
            exact ⟨_, _, rfl, rfl, .cons hb hbl⟩
        · right; rw [e1, e2]; exact ⟨e, rfl, rfl⟩

theorem exportPairs_below {f f' : Val → R Val} {hd hd' : Val → Bool} (hf : ∀ v, BelowR (f v) (f' v))
    (hh : ∀ w w', Below w w' → hd w = false → hd' w' = false) (xs : List (Key × Val)) :
    (∃ ys ys', exportPairs f hd xs = .ok ys ∧ exportPairs f' hd' xs = .ok ys' ∧
      ∀ kv ∈ ys, ∃ w, (kv.1, w) ∈ ys' ∧ Below kv.2 w) ∨
    ∃ e, exportPairs f hd xs = .error e ∧ exportPairs f' hd' xs = .error e := by
  induction xs with
  | nil => exact Or.inl ⟨[], [], rfl, rfl, by simp⟩
  | cons kx xs ih =>
    obtain ⟨k, x⟩ := kx
    have hx := hf x
    simp only [exportPairs]
    cases h1 : f x with
    | error e =>
      cases h2 : f' x with
      | error e' => rw [h1, h2] at hx; exact Or.inr ⟨e, rfl, by rw [show e = e' from hx]⟩
      | ok _ => rw [h1, h2] at hx; cases hx
    | ok y =>
      cases h2 : f' x with
      | error e' => rw [h1, h2] at hx; cases hx
      | ok y' =>
        rw [h1, h2] at hx
        have hb : Below y y' := hx
        rcases ih with ⟨ys, ys', e1, e2, hbl⟩ | ⟨e, e1, e2⟩
        · left
          rw [e1, e2]
          simp only []
          cases hy : hd y with
          | true =>
            cases hy' : hd' y' with
            | true => exact ⟨_, _, rfl, rfl, hbl⟩
            | false =>
              refine ⟨_, _, rfl, rfl, fun kv hkv => ?_⟩
              obtain ⟨w, hw, hb'⟩ := hbl kv hkv
              exact ⟨w, by simp [hw], hb'⟩
          | false =>
            rw [hh _ _ hb hy]
            refine ⟨_, _, rfl, rfl, fun kv hkv => ?_⟩
            rcases List.mem_cons.1 hkv with rfl | hkv
            · exact ⟨y', by simp, hb⟩
            · obtain ⟨w, hw, hb'⟩ := hbl kv hkv
              exact ⟨w, by simp [hw], hb'⟩
        · right; rw [e1, e2]; exact ⟨e, rfl, rfl⟩

theorem below_dict {d d' : Data} (h : ∀ kv ∈ d, ∃ w, (kv.1, w) ∈ d' ∧ Below kv.2 w) : Below (.dict d) (.dict d') := by
  classical
  refine .dict (fun kv => if hk : kv ∈ d then (h kv hk).choose else .none) ?_ ?_
  · intro kv hkv; simp only [dif_pos hkv]; exact (h kv hkv).choose_spec.1
  · intro kv hkv; simp only [dif_pos hkv]; exact (h kv hkv).choose_spec.2

/-- The same export call at another call level. -/
def ECtx.at (ctx : ECtx) (l : Nat) : ECtx := { ctx with level := some l }

theorem exportLoop_below {ctx : ECtx} {l l' : Nat} (hl : l ≤ l') (h0 : l ≠ DROP) {rec rec' : ERec}
    (hrec : ∀ o f v, BelowR (rec o f v) (rec' o f v)) {c : ClassDef} (hc : DistinctExt c) (src : Src) :
    (∃ d d', exportLoop rec (ctx.at l) c src = .ok d ∧ exportLoop rec' (ctx.at l') c src = .ok d' ∧
      ∀ kv ∈ d, ∃ w, (kv.1, w) ∈ d' ∧ Below kv.2 w) ∨
    ∃ e, exportLoop rec (ctx.at l) c src = .error e ∧ exportLoop rec' (ctx.at l') c src = .error e := by
  have hl0 : l' ≠ DROP := by unfold DROP at *; omega
  have hr : roleFilter (ctx.at l') c = roleFilter (ctx.at l) c := rfl
  unfold exportLoop
  rw [hr]
  cases roleFilter (ctx.at l) c with
  | none => exact Or.inr ⟨_, rfl, rfl⟩
  | some flt =>
    simp only [exportFields_eq]
    -- per field
    have hfield : ∀ fd, (∃ o o', exportField rec (ctx.at l) c.exportLevel flt src fd = .ok o ∧
        exportField rec' (ctx.at l') c.exportLevel flt src fd = .ok o' ∧
        ∀ w, o = some w → ∃ w', o' = some w' ∧ Below w w') ∨
        ∃ e, exportField rec (ctx.at l) c.exportLevel flt src fd = .error e ∧
          exportField rec' (ctx.at l') c.exportLevel flt src fd = .error e := by
      intro fd
      unfold exportField
      simp only []
      by_cases hs : skipped flt fd.name (src.read fd) = true
      · rw [if_pos hs, if_pos hs]; exact Or.inl ⟨_, _, rfl, rfl, by simp⟩
      · rw [if_neg hs, if_neg hs]
        have e1 : exportLevelOf (ctx.at l) c.exportLevel fd.field = l := rfl
        have e2 : exportLevelOf (ctx.at l') c.exportLevel fd.field = l' := rfl
        rw [e1, e2, if_neg h0, if_neg hl0]
        have hb : BelowR (if (src.read fd).isEmpty then .ok (src.read fd) else rec c.exportLevel fd.field (src.read fd))
            (if (src.read fd).isEmpty then .ok (src.read fd) else rec' c.exportLevel fd.field (src.read fd)) := by
          split
          · exact .refl _
          · exact hrec _ _ _
        revert hb
        generalize (if (src.read fd).isEmpty then .ok (src.read fd) else rec c.exportLevel fd.field (src.read fd)) = r
        generalize (if (src.read fd).isEmpty then .ok (src.read fd) else rec' c.exportLevel fd.field (src.read fd)) = r'
        intro hb
        cases r with
        | error e =>
          cases r' with
          | error e' => exact Or.inr ⟨e, rfl, by rw [show e = e' from hb]⟩
          | ok _ => cases hb
        | ok w =>
          cases r' with
          | error e' => cases hb
          | ok w' =>
            have hb : Below w w' := hb
            left
            simp only []
            cases hw : hidden l fd.field w with
            | true =>
              cases hw' : hidden l' fd.field w' with
              | true => exact ⟨_, _, rfl, rfl, by simp⟩
              | false => exact ⟨_, _, rfl, rfl, by simp⟩
            | false =>
              rw [hidden_mono hl hb hw]
              refine ⟨_, _, rfl, rfl, ?_⟩
              intro x hx
              injection hx with hx
              subst hx
              refine ⟨_, rfl, ?_⟩
              unfold nullify
              rw [hb.isUndef]
              split
              · exact .refl _
              · exact hb
    have houts : ∀ fds : List FieldDef,
        (∃ d d', exportOuts (exportField rec (ctx.at l) c.exportLevel flt src) fds = .ok d ∧
          exportOuts (exportField rec' (ctx.at l') c.exportLevel flt src) fds = .ok d' ∧
          ∀ kv ∈ d, ∃ w, (kv.1, w) ∈ d' ∧ Below kv.2 w) ∨
        ∃ e, exportOuts (exportField rec (ctx.at l) c.exportLevel flt src) fds = .error e ∧
          exportOuts (exportField rec' (ctx.at l') c.exportLevel flt src) fds = .error e := by
      intro fds
      induction fds with
      | nil => exact Or.inl ⟨[], [], rfl, rfl, by simp⟩
      | cons fd fds ih =>
        simp only [exportOuts]
        rcases hfield fd with ⟨o, o', h1, h2, h3⟩ | ⟨e, h1, h2⟩
        · rw [h1, h2]
          rcases ih with ⟨d, d', e1, e2, hb⟩ | ⟨e, e1, e2⟩
          · rw [e1, e2]
            left
            cases o with
            | none =>
              cases o' with
              | none => exact ⟨_, _, rfl, rfl, hb⟩
              | some w' =>
                refine ⟨_, _, rfl, rfl, fun kv hkv => ?_⟩
                obtain ⟨w, hw, hb'⟩ := hb kv hkv
                exact ⟨w, by simp [hw], hb'⟩
            | some w =>
              obtain ⟨w', rfl, hbw⟩ := h3 w rfl
              refine ⟨_, _, rfl, rfl, fun kv hkv => ?_⟩
              rcases List.mem_cons.1 hkv with rfl | hkv
              · exact ⟨w', by simp, hbw⟩
              · obtain ⟨w, hw, hb'⟩ := hb kv hkv
                exact ⟨w, by simp [hw], hb'⟩
          · right; rw [e1, e2]; exact ⟨e, rfl, rfl⟩
        · right; rw [h1, h2]; exact ⟨e, rfl, rfl⟩
    rcases houts c.fields with ⟨d, d', h1, h2, h3⟩ | ⟨e, h1, h2⟩
    · left
      rw [h1, h2]
      have hn : ∀ (g : FieldDef → R (Option Val)) d, exportOuts g c.fields = .ok d → Dict.update [] d = d := by
        intro g d hd
        obtain ⟨f, _, rfl⟩ := exportOuts_ok.1 hd
        rw [update_fresh]
        · simp
        · simpa using flatMap_entry_nodup f c.fields hc
      refine ⟨_, _, rfl, rfl, ?_⟩
      rw [hn _ _ h1, hn _ _ h2]
      exact h3
    · right; rw [h1, h2]; exact ⟨e, rfl, rfl⟩

theorem fieldExport_below {env : Env} (hd : ∀ k c, env.cls k = some c → DistinctExt c) {ctx : ECtx} {l l' : Nat}
    (hl : l ≤ l') (h0 : l ≠ DROP) :
    ∀ n owner f v, BelowR (fieldExport env (ctx.at l) n owner f v) (fieldExport env (ctx.at l') n owner f v) := by
  have hl0 : l' ≠ DROP := by unfold DROP at *; omega
  intro n
  induction n with
  | zero => intro owner f v; rfl
  | succ n ih =>
    intro owner f v
    obtain ⟨t, o⟩ := f
    simp only [fieldExport]
    have hmodel : ∀ k c src, env.cls k = some c →
        BelowR (exportModel (fieldExport env (ctx.at l) n) (ctx.at l) c src)
          (exportModel (fieldExport env (ctx.at l') n) (ctx.at l') c src) := by
      intro k c src hc
      unfold exportModel
      rcases exportLoop_below (ctx := ctx) hl h0 ih (hd k c hc) src with ⟨d, d', h1, h2, h3⟩ | ⟨e, h1, h2⟩
      · rw [h1, h2]; exact below_dict h3
      · rw [h1, h2]; exact rfl
    cases t with
    | leaf lf =>
      simp only [exportF, Field.ty_mk]
      have : (ctx.at l').fmt = (ctx.at l).fmt := rfl
      rw [this]
      have : (ctx.at l').app = (ctx.at l).app := rfl
      rw [this]
      have refl : ∀ r : R Val, BelowR r r := by
        intro r; cases r with
        | ok v => exact .refl v
        | error e => exact rfl
      exact refl _
    | list inner mn mx =>
      simp only [exportF, Field.ty_mk]
      have e1 : exportLevelOf (ctx.at l) owner inner = l := rfl
      have e2 : exportLevelOf (ctx.at l') owner inner = l' := rfl
      rw [e1, e2, if_neg h0, if_neg hl0]
      cases iterItems env v with
      | none => exact rfl
      | some xs =>
        simp only []
        rcases exportItems_below (hd := hiddenItem l inner) (hd' := hiddenItem l' inner) (fun v => ih owner inner v)
          (fun w w' => hiddenItem_mono hl) xs with ⟨ys, ys', h1, h2, h3⟩ | ⟨e, h1, h2⟩
        · rw [h1, h2]; exact Below.list h3
        · rw [h1, h2]; exact rfl
    | dict inner co =>
      simp only [exportF, Field.ty_mk]
      have e1 : exportLevelOf (ctx.at l) owner inner = l := rfl
      have e2 : exportLevelOf (ctx.at l') owner inner = l' := rfl
      rw [e1, e2, if_neg h0, if_neg hl0]
      cases iterPairs env v with
      | none => exact rfl
      | some xs =>
        simp only []
        rcases exportPairs_below (hd := hiddenItem l inner) (hd' := hiddenItem l' inner) (fun v => ih owner inner v)
          (fun w w' => hiddenItem_mono hl) xs with ⟨ys, ys', h1, h2, h3⟩ | ⟨e, h1, h2⟩
        · rw [h1, h2]; exact below_dict h3
        · rw [h1, h2]; exact rfl
    | model cls =>
      simp only [exportF, Field.ty_mk]
      split
      · split
        · exact hmodel _ _ _ (by assumption)
        · exact rfl
      · split
        · exact hmodel _ _ _ (by assumption)
        · exact rfl
      · split
        · exact hmodel _ _ _ (by assumption)
        · exact rfl
    | poly p =>
      simp only [exportF, Field.ty_mk]
      split
      · split
        · split
          · exact hmodel _ _ _ (by assumption)
          · exact rfl
        · exact rfl
      · exact rfl

/-- **C28.** Raising the call level (from a level other than `DROP`) only adds keys: both
exports fail in the same way, or every key exported at the lower level is exported at
the higher one, with a value that again has all the keys and items of the lower one. -/
theorem C28_level_monotone (env : Env) (n : Nat) (ctx : ECtx) (c : ClassDef) (src : Src) (l l' : Nat)
    (hl : l ≤ l') (h0 : l ≠ DROP) (hc : DistinctExt c) (hd : ∀ k c, env.cls k = some c → DistinctExt c) :
    (∃ d d', runExport env n { ctx with level := some l } c src = .ok d ∧
      runExport env n { ctx with level := some l' } c src = .ok d' ∧ Below (.dict d) (.dict d') ∧
      ∀ k ∈ d.keys, k ∈ d'.keys) ∨
    ∃ e, runExport env n { ctx with level := some l } c src = .error e ∧
      runExport env n { ctx with level := some l' } c src = .error e := by
  rcases exportLoop_below (ctx := ctx) hl h0 (fieldExport_below hd hl h0 n) hc src with ⟨d, d', h1, h2, h3⟩ | h
  · refine Or.inl ⟨d, d', h1, h2, below_dict h3, ?_⟩
    intro k hk
    obtain ⟨kv, hkv, rfl⟩ := List.mem_map.1 hk
    obtain ⟨w, hw, _⟩ := h3 kv hkv
    exact List.mem_map.2 ⟨_, hw, rfl⟩
  · exact Or.inr h

/-! ## The hypotheses are met -/

example := C25_role_rule_everywhere _ _ _ _ _ _ Samples.export_public
/-- A callable whitelist filters the nested models too: `label` is gone there. -/
theorem Samples.export_white : runExport Samples.env 5 { role := some (.call (Role.fn ⟨.white, ["items", "qty"]⟩)) }
    Samples.order (.inst Samples.goodData) = .ok
    [(.str "items", .list [.dict [(.str "qty", .int 1)], .dict [(.str "qty", .int 2)]])] := by rfl
example := C23_whitelist_everywhere _ _ _ _ _ _ _ rfl Samples.export_white

theorem Samples.int_json : NoOverride Samples.intLeaf ∧ LeafJson Samples.intLeaf := by
  refine ⟨rfl, fun app v w hc h => ?_⟩
  injection h with h; subst h
  rcases hc with rfl | ⟨a, v0, hc⟩
  · exact .none
  · obtain ⟨i, rfl⟩ := Samples.intLeaf_ok hc; exact .int _
theorem Samples.str_json : NoOverride Samples.strLeaf ∧ LeafJson Samples.strLeaf := by
  refine ⟨rfl, fun app v w hc h => ?_⟩
  injection h with h; subst h
  rcases hc with rfl | ⟨a, v0, hc⟩
  · exact .none
  · obtain ⟨i, rfl⟩ := Samples.strLeaf_ok hc; exact .str _
theorem Samples.order_sane : SaneClass Samples.env Samples.order where
  getters := Samples.order_fields (by simp) (by simp) (by simp) (by simp) (by simp)
  setters := Samples.order_fields (by simp) (by simp) (by simp) (by simp) (by simp)
theorem Samples.item_sane : SaneClass Samples.env Samples.item where
  getters := Samples.item_fields (by simp) (by simp)
  setters := Samples.item_fields (by simp) (by simp)
theorem Samples.env_sane : Samples.env.Sane := by
  intro k c h
  rcases Samples.env_cls h with ⟨rfl, rfl⟩ | ⟨rfl, rfl⟩
  · exact ⟨rfl, Samples.item_sane⟩
  · exact ⟨rfl, Samples.order_sane⟩
theorem Samples.good_noUndef : ∀ kv ∈ Samples.goodData, NoUndef kv.2 := by
  have hi : ∀ i, NoUndef (.int i) := fun i => .other (by simp) (by simp) (by simp) (by simp)
  have hs : ∀ i, NoUndef (.str i) := fun i => .other (by simp) (by simp) (by simp) (by simp)
  have hn : NoUndef .none := .other (by simp) (by simp) (by simp) (by simp)
  intro kv h
  simp only [Samples.goodData, List.mem_cons, List.not_mem_nil, or_false] at h
  rcases h with rfl | rfl | rfl | rfl | rfl
  · exact hi _
  · refine .list fun x hx => ?_
    simp only [List.mem_cons, List.not_mem_nil, or_false] at hx
    rcases hx with rfl | rfl
    · exact .inst (by simp [hi, hs])
    · exact .inst (by simp [hi, hn])
  · exact .dict (by simp [hi])
  · exact hs _
  · exact .inst (by simp [hi, hs, hn])

example :=
  C31_imported_instance_is_json _ 5 _ Samples.vctx {} _ (.inst []) Samples.good Samples.goodData _ rfl Samples.env_sane
    Samples.env_wf Samples.env_pure (Samples.env_leaves Samples.int_json Samples.str_json) Samples.order_wf
    (by intro nf h; cases h) Samples.order_sane (Samples.order_leaves Samples.int_json Samples.str_json)
    rfl rfl rfl ⟨rfl, rfl⟩ Samples.validate_good Samples.good_noUndef Samples.export_good

/-- The two disjuncts of C28: the sample exports at level `NOT_NONE` and at `ALL`. -/
example := C28_level_monotone Samples.env 5 {} Samples.order (.inst Samples.goodData) NOT_NONE ALL (by decide) (by decide)
  Samples.order_distinct (Samples.env_classes Samples.item_distinct Samples.order_distinct)
example : ∃ d, runExport Samples.env 5 { level := some NOT_NONE } Samples.order (.inst Samples.goodData) = .ok d := ⟨_, rfl⟩

end Verif
