import Verif.Core.Mock
import Verif.Props.Idempotent
import Verif.Props.Instance2
import Verif.Props.Setters
import Verif.Props.Mock

/-!
# C103: a mock object is an object the constructor and validation accept
-/
namespace Verif.Mocks

open Verif

/-- Every required field is filled, here and at every depth below (the words of C05). -/
def Filled (env : Env) (named : Bool) (f : Field) (w : Val) : Prop :=
  Everywhere env (RequiredOk false) (MayMiss false) false named f w

/-- The contexts in which a mock object is converted: by the constructor, or (`val`) by validation. -/
structure Gentle (val : Bool) (ctx : Ctx) : Prop where
  trusted : ctx.trusted = []
  convert : ctx.convert = true
  oo : ctx.oo = true
  mapping : ctx.mapping = .empty
  app : ctx.app = .dict []
  mode : (ctx.conv = .imp ∧ ctx.validate = false) ∨ (val = true ∧ ctx.conv = .val ∧ ctx.validate = true)

/-- A finished value of a field: conversion (and, with `val`, validation) leaves it as it is; without `partial`, if and only if the required fields
are filled. -/
structure Kept (env : Env) (val named : Bool) (f : Field) (x : Val) : Prop where
  defined : x.isUndef = false
  takes : ∃ N, ∀ n, N ≤ n → ∀ ctx, Gentle val ctx → (ctx.partial_ = true ∨ Filled env named f x) → fieldConv env n ctx named f x = .ok x
  filled : ∀ n ctx w, Gentle val ctx → ctx.partial_ = false → fieldConv env n ctx named f x = .ok w → Filled env named f x

/-- A value which the constructor converts to a finished one. -/
def Accepts (env : Env) (val named : Bool) (f : Field) (v : Val) : Prop :=
  ∃ w, Kept env val named f w ∧ ∃ N, ∀ n, N ≤ n → fieldConv env n newCtx named f v = .ok w

/-- The length of a list is within its bounds. -/
def Fits (mn mx : Option Nat) (xs : List Val) : Prop := (∀ m, mn = some m → m ≤ xs.length) ∧ ∀ m, mx = some m → xs.length ≤ m

/-- A value which the choices and the user's validators of a field let pass. -/
def LetPass (o : FieldOpts) (v : Val) : Prop := checkChoices o.choices (.dict []) v = .ok () ∧ ∀ g ∈ o.validators, g (.dict []) v = .ok ()

mutual
/-- What `_mock` of a type (with the options `o`) can return is acceptable: scalar mocks are; dicts and polymorphic models, for which it is `None`,
are not demanded inside lists; classes exist; user's validators on lists and models let the mocks pass.  `E` says which exceptions may occur. -/
def TypeMocked (env : Env) (val : Bool) (dice : Dice) (E : Exc → Prop) : FType → Bool → FieldOpts → Prop
  | .leaf l, named, o => ∀ p, (∀ v, dice.leaf p l = some v → Accepts env val named (.mk (.leaf l) o) v) ∧ (dice.leaf p l = none → E (.other "MockCreationError"))
  | .list inner mn mx, _, o => FieldMocked env val dice E inner false ∧
      (∀ p, Types.Mock.listLength mx mn (dice.tape p) = none → E (.other "MockCreationError")) ∧
      (val = true → ∀ xs, Fits mn mx xs → LetPass o (.list xs))
  | .dict _ _, named, o => named = true ∨ o.required = false
  | .model k, _, o => (∃ c, env.cls k = some c) ∧ (val = true → ∀ d, LetPass o (.inst k d))
  | .poly _, named, o => named = true ∨ o.required = false
/-- The same for a field. -/
def FieldMocked (env : Env) (val : Bool) (dice : Dice) (E : Exc → Prop) : Field → Bool → Prop
  | .mk t o, named => TypeMocked env val dice E t named o
end

/-- What is assumed of a field of a class: its default and its choices are acceptable, without choices its mocks are. -/
structure FieldOk (env : Env) (val : Bool) (dice : Dice) (E : Exc → Prop) (f : Field) : Prop where
  default : f.o.default.isUndef = true ∨ Accepts env val true f f.o.default
  choices : ∀ cs, f.o.choices = some cs → (cs = [] → E (.other "IndexError")) ∧ ∀ v ∈ cs, Accepts env val true f v
  mocks : f.o.choices = none → FieldMocked env val dice E f true

/-- What is assumed of a class. -/
structure ClassOk (env : Env) (val : Bool) (dice : Dice) (E : Exc → Prop) (c : ClassDef) : Prop where
  wf : c.WF
  simple : c.Simple
  clash : c.NoAliasClash
  pure : PureValidators c
  validators : val = true → ∀ mv d, validateModel c mv (.dict []) d = .ok ([], d)
  fields : ∀ fd ∈ c.fields, FieldOk env val dice E fd.field

/-- A program: finitely many classes, each registered under its name. -/
structure Program (env : Env) (val : Bool) (dice : Dice) (E : Exc → Prop) (ks : List String) : Prop where
  named : ∀ k c, env.cls k = some c → c.name = k ∧ k ∈ ks
  refl : ∀ k, env.isSub k k = true
  classes : ∀ k c, env.cls k = some c → ClassOk env val dice E c
  handled : ∀ e, E e → E (mockHandler e)

/-! ## Lemmas: finished values -/

theorem gentle_new (val : Bool) : Gentle val newCtx := ⟨rfl, rfl, rfl, rfl, rfl, Or.inl ⟨rfl, rfl⟩⟩

theorem gentle_sub {env : Env} {val : Bool} {ctx : Ctx} (h : Gentle val ctx) (name : String) : subCtx env ctx name = ctx := by
  obtain ⟨cv, tr, mp, pa, st, ini, de, co, va, oo, re, app⟩ := ctx
  have h1 := h.trusted
  have h2 := h.mapping
  simp only at h1 h2
  subst h1 h2
  rfl

theorem gentle_field {env : Env} {val : Bool} {ctx : Ctx} (h : Gentle val ctx) (b : Bool) (name : String) :
    (if b then subCtx env ctx name else ctx) = ctx := by
  rw [gentle_sub h]; split <;> rfl

theorem isUndef_of_nonempty {v : Val} (h : v.isEmpty = false) : v.isUndef = false := by
  cases v <;> first | rfl | cases h

/-- `None` is finished wherever it is not demanded. -/
theorem kept_none (env : Env) (val named : Bool) (f : Field) (h : named = true ∨ f.o.required = false) : Kept env val named f .none := by
  refine ⟨rfl, ⟨1, fun n hn ctx hc hp => ?_⟩, fun n ctx w _ hpa hw => .empty rfl ?_⟩
  rotate_left
  · intro hr _
    exfalso
    cases n with
    | zero => cases hw
    | succ n =>
      have : requiredFails ctx named f .none = true := by simp [requiredFails, hr, hpa, Val.isEmpty]
      simp only [fieldConv, fieldConvF, this, if_true] at hw
      cases hw
  obtain ⟨m, rfl⟩ := Nat.exists_eq_add_of_le' hn
  have hr : requiredFails ctx named f .none = false := by
    unfold requiredFails
    rcases h with h | h
    · rcases hp with hp | hp
      · simp [h, hp]
      · have hq : RequiredOk false named f .none := by
          cases hp with
          | empty _ h => exact h
          | leaf h => exact h
          | model _ _ _ h => rcases h with h | h <;> cases h
          | prebuilt h => cases h
        cases hr : f.o.required with
        | false => rfl
        | true => exact absurd (hq hr (Or.inr rfl)) (by decide)
    · simp [h]
  simp only [fieldConv, fieldConvF, hr]
  rfl

theorem accepts_none (env : Env) (val named : Bool) (f : Field) (h : named = true ∨ f.o.required = false) : Accepts env val named f .none := by
  have k := kept_none env val named f h
  obtain ⟨N, hN⟩ := k.takes
  exact ⟨.none, k, N, fun n hn => hN n hn newCtx (gentle_new val) (Or.inl rfl)⟩

theorem fieldConvF_gentle {rec : Rec} {env : Env} {val : Bool} {ctx : Ctx} (hc : Gentle val ctx) {named : Bool} {f : Field} {x : Val}
    (hx : x.isEmpty = false) (ho : f.ty.override = none) (h1 : convertF rec env ctx f x = .ok x)
    (h2 : val = true → runValidators (.dict []) x f.allValidators = .ok none) : fieldConvF rec env ctx named f x = .ok x := by
  have hr : requiredFails ctx named f x = false := by simp [requiredFails, hx]
  unfold fieldConvF
  rw [hr, hx]
  simp only [Bool.false_eq_true, if_false]
  rcases hc.mode with ⟨h, _⟩ | ⟨hv, h, _⟩
  · rw [h]; exact h1
  · rw [h]
    simp only [validateF, ho, hc.convert, if_true, h1, finishValidation, hc.app, h2 hv]

theorem converted {rec : Rec} {env : Env} {val : Bool} {ctx : Ctx} (hc : Gentle val ctx) {named : Bool} {f : Field} {x w : Val}
    (hx : x.isEmpty = false) (ho : f.ty.override = none) (h : fieldConvF rec env ctx named f x = .ok w) : ∃ u, convertF rec env ctx f x = .ok u := by
  have hr : requiredFails ctx named f x = false := by simp [requiredFails, hx]
  unfold fieldConvF at h
  rw [hr, hx] at h
  simp only [Bool.false_eq_true, if_false] at h
  rcases hc.mode with ⟨h', _⟩ | ⟨hv, h', _⟩
  · rw [h'] at h; exact ⟨w, h⟩
  · rw [h'] at h
    simp only [validateF, ho, hc.convert, if_true] at h
    cases hcv : convertF rec env ctx f x with
    | ok u => exact ⟨u, rfl⟩
    | error e => rw [hcv] at h; cases h

theorem all2_left {α β : Type} {P : α → β → Prop} {xs : List α} {ys : List β} (h : All2 P xs ys) : ∀ x ∈ xs, ∃ y, P x y := by
  induction h with
  | nil => intro x hx; cases hx
  | cons h _ ih =>
    intro x hx
    rcases List.mem_cons.1 hx with rfl | hx
    · exact ⟨_, h⟩
    · exact ih x hx

theorem runValidators_all {app v : Val} {gs : List Validator} (h : ∀ g ∈ gs, g app v = .ok ()) : runValidators app v gs = .ok none := by
  induction gs with
  | nil => rfl
  | cons g gs ih => simp only [runValidators, h g (by simp), ih fun g hg => h g (by simp [hg])]

/-- Scalars: a proper value on which the conversion does nothing and which the validators let pass is finished. -/
theorem kept_leaf (env : Env) (val named : Bool) (l : Leaf) (o : FieldOpts) (x : Val) (hx : x.isEmpty = false) (ho : l.override = none)
    (h1 : l.toNative (.dict []) x = .ok x) (h2 : val = true → LetPass o x ∧ ∀ g ∈ l.validators, g (.dict []) x = .ok ()) :
    Kept env val named (.mk (.leaf l) o) x := by
  refine ⟨isUndef_of_nonempty hx, ⟨1, fun n hn ctx hc _ => ?_⟩, fun _ _ _ _ _ _ => .leaf fun _ _ => hx⟩
  obtain ⟨m, rfl⟩ := Nat.exists_eq_add_of_le' hn
  refine fieldConvF_gentle hc hx ho (by simpa [convertF, hc.app] using h1) fun hv => runValidators_all ?_
  intro g hg
  obtain ⟨⟨a, b⟩, c⟩ := h2 hv
  simp only [Field.allValidators, Field.o_mk, Field.ty_mk, List.mem_cons, List.mem_append] at hg
  rcases hg with rfl | hg | hg
  · exact a
  · exact c g hg
  · exact b g hg

/-- Scalars: a value that is converted to such a one is accepted. -/
theorem accepts_leaf (env : Env) (val named : Bool) (l : Leaf) (o : FieldOpts) (v x : Val) (hv : v.isEmpty = false) (h0 : l.toNative (.dict []) v = .ok x)
    (hk : Kept env val named (.mk (.leaf l) o) x) : Accepts env val named (.mk (.leaf l) o) v := by
  refine ⟨x, hk, 1, fun n hn => ?_⟩
  obtain ⟨m, rfl⟩ := Nat.exists_eq_add_of_le' hn
  have hr : requiredFails newCtx named (.mk (.leaf l) o) v = false := by simp [requiredFails, hv]
  simp only [fieldConv, fieldConvF, hr, hv]
  exact h0

theorem uniform {α : Type} {P : α → Nat → Prop} (l : List α) (h : ∀ a ∈ l, ∃ N, ∀ n, N ≤ n → P a n) : ∃ N, ∀ n, N ≤ n → ∀ a ∈ l, P a n := by
  induction l with
  | nil => exact ⟨0, fun _ _ _ h => by cases h⟩
  | cons a l ih =>
    obtain ⟨N, hN⟩ := ih fun b hb => h b (by simp [hb])
    obtain ⟨M, hM⟩ := h a (by simp)
    refine ⟨max N M, fun n hn b hb => ?_⟩
    rcases List.mem_cons.1 hb with rfl | hb
    · exact hM n (by omega)
    · exact hN n (by omega) b hb

theorem all2_self {α : Type} {P : α → α → Prop} (l : List α) (h : ∀ a ∈ l, P a a) : All2 P l l := by
  induction l with
  | nil => exact .nil
  | cons a l ih => exact .cons (h a (by simp)) (ih fun b hb => h b (by simp [hb]))

theorem fits_check {mn mx : Option Nat} {xs : List Val} (h : Fits mn mx xs) : checkLength mn mx (.dict []) (.list xs) = .ok () := by
  have h1 : tooShort mn xs.length = false := by
    cases mn with
    | none => rfl
    | some m => simp [tooShort]; exact h.1 m rfl
  have h2 : tooLong mx xs.length = false := by
    cases mx with
    | none => rfl
    | some m => simp [tooLong]; exact h.2 m rfl
  simp [checkLength, pyLen, h1, h2]

/-- Lists of finished values are finished. -/
theorem kept_list (env : Env) (val named : Bool) (inner : Field) (mn mx : Option Nat) (o : FieldOpts) (xs : List Val)
    (hx : ∀ x ∈ xs, Kept env val false inner x) (hv : val = true → Fits mn mx xs ∧ LetPass o (.list xs)) :
    Kept env val named (.mk (.list inner mn mx) o) (.list xs) := by
  obtain ⟨N, hN⟩ := uniform xs (fun x hm => (hx x hm).takes)
  refine ⟨rfl, ⟨N + 1, fun n hn ctx hc hp => ?_⟩, fun n ctx w hc hpa hw => ?_⟩
  rotate_left
  · cases n with
    | zero => cases hw
    | succ n =>
      have h := converted hc rfl rfl hw
      simp only [convertF, Field.ty_mk, coerceList] at h
      obtain ⟨u, h⟩ := h
      obtain ⟨ys, _, hall⟩ := listConv_ok h
      refine .list (fun _ _ => rfl) fun x hm => ?_
      obtain ⟨y, hy⟩ := all2_left hall x hm
      exact (hx x hm).filled n ctx y hc hpa hy
  obtain ⟨m, rfl⟩ := Nat.exists_eq_add_of_le' (Nat.le_trans (Nat.le_add_left 1 N) hn)
  refine fieldConvF_gentle hc rfl rfl ?_ fun hv' => runValidators_all ?_
  · simp only [convertF, Field.ty_mk, coerceList]
    refine listConv_of (all2_self xs fun x hm => hN m (by omega) x hm ctx hc (hp.imp id fun h => ?_))
    cases h with
    | empty h => cases h
    | list _ h => exact h x hm
    | model _ h => rcases h with ⟨_, h⟩ | ⟨_, h⟩ <;> cases h
  · intro g hg
    obtain ⟨hf, a, b⟩ := hv hv'
    simp only [Field.allValidators, Field.o_mk, Field.ty_mk, List.mem_cons, List.mem_append, List.not_mem_nil, or_false] at hg
    rcases hg with rfl | rfl | hg
    · exact a
    · exact fits_check hf
    · exact b g hg

/-- Lists of acceptable values are acceptable. -/
theorem accepts_list (env : Env) (val named : Bool) (inner : Field) (mn mx : Option Nat) (o : FieldOpts) (xs : List Val)
    (hx : ∀ x ∈ xs, Accepts env val false inner x) (hv : val = true → Fits mn mx xs ∧ ∀ ys, Fits mn mx ys → LetPass o (.list ys)) :
    Accepts env val named (.mk (.list inner mn mx) o) (.list xs) := by
  have key : ∃ ys, ys.length = xs.length ∧ (∀ y ∈ ys, Kept env val false inner y) ∧
      ∃ N, ∀ n, N ≤ n → All2 (fun x y => fieldConv env n newCtx false inner x = .ok y) xs ys := by
    clear hv
    induction xs with
    | nil => exact ⟨[], rfl, fun _ h => (by cases h), 0, fun _ _ => .nil⟩
    | cons x xs ih =>
      obtain ⟨ys, hl, hk, N, hN⟩ := ih fun y hy => hx y (by simp [hy])
      obtain ⟨w, hw, M, hM⟩ := hx x (by simp)
      refine ⟨w :: ys, by simp [hl], ?_, max N M, fun n hn => .cons (hM n (by omega)) (hN n (by omega))⟩
      intro y hy
      rcases List.mem_cons.1 hy with rfl | hy
      · exact hw
      · exact hk y hy
  obtain ⟨ys, hl, hk, N, hN⟩ := key
  refine ⟨.list ys, kept_list env val named inner mn mx o ys hk fun h => ?_, N + 1, fun n hn => ?_⟩
  · have hf : Fits mn mx ys := by unfold Fits; rw [hl]; exact (hv h).1
    exact ⟨hf, (hv h).2 ys hf⟩
  · obtain ⟨m, rfl⟩ := Nat.exists_eq_add_of_le' (Nat.le_trans (Nat.le_add_left 1 N) hn)
    have hr : requiredFails newCtx named (.mk (.list inner mn mx) o) (.list xs) = false := by simp [requiredFails, Val.isEmpty]
    have he : (Val.list xs).isEmpty = false := rfl
    simp only [fieldConv, fieldConvF, hr, he]
    exact listConv_of (hN m (by omega))

/-- The content of a finished object: every field holds a finished value. -/
structure Content (env : Env) (val : Bool) (c : ClassDef) (d : Data) : Prop where
  shape : ∃ res : FieldDef → Option Val, d = tabulate c.fields res ∧ ∀ fd ∈ c.fields, ∃ w, res fd = some w ∧ Kept env val true fd.field w

theorem rogue_none {ctx : Ctx} {c : ClassDef} {raw : Data} (h : ∀ k ∈ raw.keys, ∃ fd ∈ c.fields, k = Key.str fd.name) : rogueKeys ctx c raw = [] := by
  unfold rogueKeys
  split
  · rw [List.filter_eq_nil_iff]
    intro k hk
    obtain ⟨fd, hfd, rfl⟩ := h k hk
    have hm : Key.str fd.name ∈ (acceptedKeys ctx.mapping c).map Key.str :=
      List.mem_map.2 ⟨fd.name, by
        unfold acceptedKeys
        exact List.mem_append_left _ (List.mem_flatMap.2 ⟨fd, hfd, by simp [inputKeys]⟩), rfl⟩
    simpa using hm
  · rfl

/-- The fields of the content are filled. -/
def AllFilled (env : Env) (c : ClassDef) (d : Data) : Prop := ∀ fd ∈ c.fields, ∀ w, Dict.get? d (.str fd.name) = some w → Filled env true fd.field w

/-- Finished content is left as it is by the import loop. -/
theorem content_body {env : Env} {val : Bool} {c : ClassDef} (hwf : c.WF) (hs : c.Simple) {d : Data} (h : Content env val c d) :
    ∃ N, ∀ n, N ≤ n → ∀ ctx, Gentle val ctx → (ctx.partial_ = true ∨ AllFilled env c d) → importBody (fieldConv env n) env ctx c d [] = .ok d := by
  obtain ⟨res, rfl, hres⟩ := h.shape
  obtain ⟨N, hN⟩ := uniform (P := fun fd n => ∀ ctx, Gentle val ctx → (ctx.partial_ = true ∨ AllFilled env c (tabulate c.fields res)) →
      FieldGives (fieldConv env n) env ctx (tabulate c.fields res) fd (res fd)) c.fields (by
    intro fd hfd
    obtain ⟨w, hw, hk⟩ := hres fd hfd
    obtain ⟨N, hN⟩ := hk.takes
    refine ⟨N, fun n hn ctx hc hp => ⟨w, ?_, by rw [hk.defined, hw]; rfl⟩⟩
    have hget := tabulate_get hwf res hfd
    have hin : inputValue (tabulate c.fields res) ctx.mapping fd = w := by
      have : rawValue (tabulate c.fields res) fd.name = w := by simp [rawValue, hget, hw]
      simp [inputValue, this, hk.defined]
    have hfi : fillValue ctx fd w = w := by simp [fillValue, hk.defined]
    rw [gentle_field hc, hin, hfi]
    exact hN n hn ctx hc (hp.imp id fun h => h fd hfd w (by rw [hget, hw])))
  refine ⟨N, fun n hn ctx hc hp => (importBody_simple hc.trusted hwf hs).2 ⟨rogue_none ?_, res, fun fd hfd => hN n hn fd hfd ctx hc hp, rfl⟩⟩
  intro k hk
  obtain ⟨fd, hfd, rfl, _⟩ := tabulate_keys.1 hk
  exact ⟨fd, hfd, rfl⟩

/-- Conversely, if the import loop accepts finished content without `partial`, the required fields are filled. -/
theorem content_filled {env : Env} {val : Bool} {c : ClassDef} (hwf : c.WF) (hs : c.Simple) {d d' : Data} (h : Content env val c d) {n : Nat} {ctx : Ctx}
    (hc : Gentle val ctx) (hp : ctx.partial_ = false) (hb : importBody (fieldConv env n) env ctx c d [] = .ok d') : AllFilled env c d := by
  obtain ⟨res, rfl, hres⟩ := h.shape
  obtain ⟨_, res', hres', _⟩ := (importBody_simple hc.trusted hwf hs).1 hb
  intro fd hfd w hw
  obtain ⟨x, hx, hk⟩ := hres fd hfd
  have hget := tabulate_get hwf res hfd
  obtain ⟨u, hu, _⟩ := hres' fd hfd
  have hin : inputValue (tabulate c.fields res) ctx.mapping fd = x := by
    have : rawValue (tabulate c.fields res) fd.name = x := by simp [rawValue, hget, hx]
    simp [inputValue, this, hk.defined]
  have hfi : fillValue ctx fd x = x := by simp [fillValue, hk.defined]
  rw [gentle_field hc, hin, hfi] at hu
  rw [hget, hx] at hw
  injection hw with hw
  subst hw
  exact hk.filled n ctx u hc hp hu

/-- Objects with finished content are finished. -/
theorem kept_inst {env : Env} {val : Bool} {dice : Dice} {E : Exc → Prop} {ks : List String} (hp : Program env val dice E ks) {k : String} {c : ClassDef}
    (hc : env.cls k = some c) {d : Data} (hd : Content env val c d) (named : Bool) (o : FieldOpts) (ho : val = true → LetPass o (.inst k d)) :
    Kept env val named (.mk (.model k) o) (.inst k d) := by
  have hck := hp.classes k c hc
  obtain ⟨N, hN⟩ := content_body hck.wf hck.simple hd
  refine ⟨rfl, ⟨N + 1, fun n hn ctx hg hpf => ?_⟩, fun n ctx w hg hpa hw => ?_⟩
  rotate_left
  · cases n with
    | zero => cases hw
    | succ n =>
      obtain ⟨u, hu⟩ := converted hg rfl rfl hw
      obtain ⟨res, rfl, hr⟩ := id hd.shape
      have hview : c.view (tabulate c.fields res) = tabulate c.fields res := view_tabulate hck.wf hck.simple res
      simp only [convertF, Field.ty_mk, modelConv, hp.refl, if_true, hc, hview, modelInto, hg.convert, hg.oo, Bool.and_self] at hu
      obtain ⟨d', hb, _⟩ := (simple_newInstance hck.simple hck.pure).1 hu
      have hall := content_filled hck.wf hck.simple hd hg hpa hb
      refine .model (c := c) (fun _ _ => rfl) (Or.inl ⟨k, rfl⟩) hc (Or.inl (by rw [(hp.named k c hc).1])) ?_ ?_ ?_
      · intro key hkey
        obtain ⟨fd, hfd, rfl, _⟩ := tabulate_keys.1 hkey
        exact ⟨fd, hfd, rfl⟩
      · intro fd hfd _ hn
        obtain ⟨x, hx, _⟩ := hr fd hfd
        rw [tabulate_get hck.wf res hfd, hx] at hn
        cases hn
      · exact fun fd hfd _ w hw => hall fd hfd w hw
  obtain ⟨m, rfl⟩ := Nat.exists_eq_add_of_le' (Nat.le_trans (Nat.le_add_left 1 N) hn)
  refine fieldConvF_gentle hg rfl rfl ?_ fun hv => runValidators_all ?_
  · obtain ⟨res, rfl, _⟩ := hd.shape
    have hview : c.view (tabulate c.fields res) = tabulate c.fields res := view_tabulate hck.wf hck.simple res
    have hb := hN m (by omega) ctx hg (hpf.imp id fun h => ?_)
    · simp only [convertF, Field.ty_mk, modelConv, hp.refl, if_true, hc, hview, modelInto, hg.convert, hg.oo, Bool.and_self]
      refine (simple_newInstance hck.simple hck.pure).2 ⟨_, hb, by rw [(hp.named k c hc).1], fun hv => ?_⟩
      rw [hg.app]
      rcases hg.mode with ⟨_, h⟩ | ⟨h, _⟩
      · rw [h] at hv; cases hv
      · exact hck.validators h _ _
    · cases h with
      | empty h => cases h
      | model _ _ hcls hv _ _ hf =>
        rename_i k' c' d'
        rcases hv with hv | hv
        · injection hv with h1 h2
          have hk' := (hp.named _ _ hcls).1
          rw [← hk', ← h1] at hcls
          rw [hc] at hcls
          injection hcls with hcls
          subst hcls h2
          intro fd hfd w hw
          exact hf fd hfd (hck.simple fd hfd).2 w hw
        · cases hv
  · intro g hg'
    obtain ⟨a, b⟩ := ho hv
    simp only [Field.allValidators, Field.o_mk, Field.ty_mk, List.mem_cons, List.nil_append] at hg'
    rcases hg' with rfl | hg'
    · exact a
    · exact b g hg'

theorem accepts_of_kept {env : Env} {val named : Bool} {f : Field} {v : Val} (h : Kept env val named f v) : Accepts env val named f v := by
  obtain ⟨N, hN⟩ := h.takes
  exact ⟨v, h, N, fun n hn => hN n hn newCtx (gentle_new val) (Or.inl rfl)⟩

/-! ## Lemmas: the run -/

/-- With enough stack the outcome is always the same, and `P` holds of it. -/
def Finally {α : Type} (g : Nat → R α) (P : R α → Prop) : Prop := ∃ r, P r ∧ ∃ N, ∀ n, N ≤ n → g n = r

/-- A result of which `Q` holds, with more classes visited; or an exception allowed by `E`. -/
def Outcome {α : Type} (E : Exc → Prop) (seen : Seen) (Q : α → Prop) (r : R (α × Seen)) : Prop :=
  (∃ a seen', r = .ok (a, seen') ∧ (∀ d ∈ seen, d ∈ seen') ∧ Q a) ∨ ∃ e, r = .error e ∧ E e

theorem finally_const {α : Type} {r : R α} {P : R α → Prop} (h : P r) : Finally (fun _ => r) P := ⟨r, h, 0, fun _ _ => rfl⟩

theorem finally_bind {α β : Type} {E : Exc → Prop} {seen : Seen} {Q : α → Prop} {g : Nat → R (α × Seen)} {h : Nat → R (α × Seen) → R β}
    {P : R β → Prop} (hg : Finally g (Outcome E seen Q))
    (hok : ∀ a seen', (∀ d ∈ seen, d ∈ seen') → Q a → Finally (fun n => h n (.ok (a, seen'))) P)
    (herr : ∀ e, E e → Finally (fun n => h n (.error e)) P) : Finally (fun n => h n (g n)) P := by
  obtain ⟨r, hr, N, hN⟩ := hg
  have : Finally (fun n => h n r) P := by
    rcases hr with ⟨a, seen', rfl, h1, h2⟩ | ⟨e, rfl, h1⟩
    · exact hok a seen' h1 h2
    · exact herr e h1
  obtain ⟨s, hs, M, hM⟩ := this
  refine ⟨s, hs, max N M, fun n hn => ?_⟩
  show h n (g n) = s
  rw [hN n (by omega)]
  exact hM n (by omega)

/-- The number of classes not visited. -/
def unseen (ks : List String) (seen : Seen) : Nat := (ks.filter fun k => decide (k ∉ seen)).length

theorem unseen_mono {ks : List String} {s s' : Seen} (h : ∀ d ∈ s, d ∈ s') : unseen ks s' ≤ unseen ks s := by
  unfold unseen
  apply List.Sublist.length_le
  apply List.monotone_filter_right
  intro a
  simp only [decide_eq_true_eq]
  exact fun h1 h2 => h1 (h a h2)

theorem filter_lt {ks : List String} {f g : String → Bool} (h : ∀ a, f a = true → g a = true) {k : String} (hk : k ∈ ks) (h1 : f k = false) (h2 : g k = true) :
    (ks.filter f).length < (ks.filter g).length := by
  induction ks with
  | nil => cases hk
  | cons a ks ih =>
    have hle : (ks.filter f).length ≤ (ks.filter g).length := by
      apply List.Sublist.length_le
      exact List.monotone_filter_right _ fun a => h a
    rcases List.mem_cons.1 hk with rfl | hm
    · simp only [List.filter_cons, h1, h2, if_true, List.length_cons]
      simp; omega
    · have := ih hm
      simp only [List.filter_cons]
      cases ha : f a with
      | true => simp [h a ha]; exact this
      | false =>
        simp
        split
        · simp; omega
        · exact this

theorem seeClass_sub (k : String) (seen : Seen) : ∀ d ∈ seen, d ∈ seeClass k seen := by
  intro d hd; unfold seeClass; split
  · exact hd
  · simp [hd]

theorem seeClass_mem (k : String) (seen : Seen) : k ∈ seeClass k seen := by
  unfold seeClass; split
  · assumption
  · simp

theorem seeClass_mono (k : String) {s s' : Seen} (h : ∀ d ∈ s, d ∈ s') : ∀ d ∈ seeClass k s, d ∈ seeClass k s' := by
  intro d hd
  unfold seeClass at hd
  split at hd
  · exact seeClass_sub _ _ _ (h d hd)
  · rcases List.mem_cons.1 hd with rfl | hd
    · exact seeClass_mem _ _
    · exact seeClass_sub _ _ _ (h d hd)

theorem unseen_lt {ks : List String} {k : String} {seen : Seen} (hk : k ∈ ks) (h : k ∉ seen) : unseen ks (seeClass k seen) < unseen ks seen := by
  refine filter_lt ?_ hk ?_ (by simpa using h)
  · intro a
    simp only [decide_eq_true_eq]
    exact fun h1 h2 => h1 (seeClass_sub _ _ _ h2)
  · simpa using seeClass_mem k seen

/-- A finished object of the class registered as `k`. -/
def Object (env : Env) (val : Bool) (k : String) (v : Val) : Prop := ∃ c d, env.cls k = some c ∧ v = .inst k d ∧ Content env val c d

/-- The recursive calls behave as claimed while there are less than `K` classes not visited. -/
def RecOk (env : Env) (val : Bool) (E : Exc → Prop) (ks : List String) (K : Nat) (rec : Nat → List Nat → String → Seen → R (Val × Seen)) : Prop :=
  ∀ p k seen, (∃ c, env.cls k = some c) → unseen ks (seeClass k seen) < K →
    Finally (fun n => rec n p k seen) (Outcome E seen (Object env val k))

theorem items_ok {E : Exc → Prop} {Q : Val → Prop} {f : Nat → Nat → Seen → R (Val × Seen)} (T : Seen → Prop) (hT : ∀ s s', (∀ d ∈ s, d ∈ s') → T s → T s')
    (hf : ∀ i seen, T seen → Finally (fun n => f n i seen) (Outcome E seen Q)) (m : Nat) (seen : Seen) (hs : T seen) :
    Finally (fun n => mockItems (f n) m seen) (Outcome E seen fun xs => xs.length = m ∧ ∀ x ∈ xs, Q x) := by
  induction m generalizing seen with
  | zero => exact finally_const (Or.inl ⟨[], seen, rfl, fun _ h => h, rfl, fun _ h => by cases h⟩)
  | succ m ih =>
    simp only [mockItems]
    refine finally_bind (h := fun n r => match r with
      | .error e => .error e
      | .ok (x, seen) =>
        match mockItems (f n) m seen with
        | .error e => .error e
        | .ok (xs, seen) => .ok (x :: xs, seen)) (hf m seen hs) ?_ ?_
    · intro x s1 h1 hx
      refine finally_bind (h := fun _ r => match r with
        | .error e => .error e
        | .ok (xs, seen) => .ok (x :: xs, seen)) (ih s1 (hT _ _ h1 hs)) ?_ ?_
      · intro xs s2 h2 hxs
        refine finally_const (Or.inl ⟨x :: xs, s2, rfl, fun d hd => h2 d (h1 d hd), by simp [hxs.1], ?_⟩)
        intro y hy
        rcases List.mem_cons.1 hy with rfl | hy
        · exact hx
        · exact hxs.2 y hy
      · exact fun e he => finally_const (Or.inr ⟨e, rfl, he⟩)
    · exact fun e he => finally_const (Or.inr ⟨e, rfl, he⟩)

section
variable {env : Env} {val : Bool} {dice : Dice} {E : Exc → Prop} {ks : List String} (hp : Program env val dice E ks) {K : Nat}
  {rec : Nat → List Nat → String → Seen → R (Val × Seen)} (hrec : RecOk env val E ks K rec)

mutual
theorem type_ok (hp : Program env val dice E ks) (hrec : RecOk env val E ks K rec) : (t : FType) → (named : Bool) → (o : FieldOpts) →
    TypeMocked env val dice E t named o → (p : List Nat) → (seen : Seen) → (∀ k, t.modelClass = some k → k ∈ ks → unseen ks (seeClass k seen) < K) →
    Finally (fun n => t.mockValue (rec n) dice p seen) (Outcome E seen (Accepts env val named (.mk t o)))
  | .leaf l, named, o, h, p, seen, _ => by
    simp only [FType.mockValue]
    have := h p
    cases hd : dice.leaf p l with
    | some v => exact finally_const (Or.inl ⟨v, seen, rfl, fun _ h => h, this.1 v hd⟩)
    | none => exact finally_const (Or.inr ⟨_, rfl, this.2 hd⟩)
  | .list inner mn mx, named, o, h, p, seen, hs => by
    simp only [FType.mockValue]
    obtain ⟨h1, h2, h3⟩ := h
    cases hl : Types.Mock.listLength mx mn (dice.tape p) with
    | none => exact finally_const (Or.inr ⟨_, rfl, h2 p hl⟩)
    | some m =>
      refine finally_bind (h := fun _ r => mockedList r)
        (items_ok (fun s => ∀ k, inner.modelClass = some k → k ∈ ks → unseen ks (seeClass k s) < K)
          (fun s s' hss h k hk hm => Nat.lt_of_le_of_lt (unseen_mono (seeClass_mono k hss)) (h k hk hm))
          (fun i s hs => field_ok hp hrec inner false h1 (i :: p) s hs) m seen hs) ?_ ?_
      · rintro xs s1 hs1 ⟨hlen, hxs⟩
        refine finally_const (Or.inl ⟨.list xs, s1, rfl, hs1, accepts_list env val named inner mn mx o xs hxs fun hv => ⟨?_, h3 hv⟩⟩)
        have := (Types.Mock.C73_list mx mn (dice.tape p)).1 m hl
        unfold Fits
        rw [hlen]
        exact this
      · exact fun e he => finally_const (Or.inr ⟨e, rfl, he⟩)
  | .dict inner co, named, o, h, p, seen, _ => by
    simp only [FType.mockValue]
    exact finally_const (Or.inl ⟨.none, seen, rfl, fun _ h => h, accepts_none env val named _ h⟩)
  | .model k, named, o, h, p, seen, hs => by
    simp only [FType.mockValue]
    refine finally_bind (h := fun _ r => r) (hrec p k seen h.1 (hs k rfl (by obtain ⟨c, hc⟩ := h.1; exact (hp.named k c hc).2))) ?_ ?_
    · rintro v s1 hs1 ⟨c, d, hc, rfl, hd⟩
      exact finally_const (Or.inl ⟨_, s1, rfl, hs1, accepts_of_kept (kept_inst hp hc hd named o fun hv => h.2 hv d)⟩)
    · exact fun e he => finally_const (Or.inr ⟨e, rfl, he⟩)
  | .poly q, named, o, h, p, seen, _ => by
    simp only [FType.mockValue]
    exact finally_const (Or.inl ⟨.none, seen, rfl, fun _ h => h, accepts_none env val named _ h⟩)
theorem field_ok (hp : Program env val dice E ks) (hrec : RecOk env val E ks K rec) : (f : Field) → (named : Bool) →
    FieldMocked env val dice E f named → (p : List Nat) → (seen : Seen) → (∀ k, f.modelClass = some k → k ∈ ks → unseen ks (seeClass k seen) < K) →
    Finally (fun n => f.mockValue (rec n) dice p seen) (Outcome E seen (Accepts env val named f))
  | .mk t o, named, h, p, seen, hs => by
    simp only [Field.mockValue]
    exact type_ok hp hrec t named o h p seen hs
end

/-- A mocked value that is handed to the constructor: acceptable, or `Undefined` (the default of a field without one). -/
def Given (env : Env) (val : Bool) (f : Field) (v : Val) : Prop := v.isUndef = true ∨ Accepts env val true f v

theorem mock_ok (hp : Program env val dice E ks) (hrec : RecOk env val E ks K rec) (f : Field) (hf : FieldOk env val dice E f) (p : List Nat) (seen : Seen)
    (hs : ∀ k, f.modelClass = some k → k ∈ ks → unseen ks (seeClass k seen) < K) :
    Finally (fun n => f.mock (rec n) dice p seen) (Outcome E seen (Given env val f)) := by
  unfold Field.mock
  cases hq : (!f.o.required && !dice.fill p) with
  | true =>
    simp only [if_true]
    exact finally_const (Or.inl ⟨_, seen, rfl, fun _ h => h, hf.default⟩)
  | false =>
    simp only [Bool.false_eq_true, if_false]
    cases hch : f.o.choices with
    | some cs =>
      obtain ⟨h1, h2⟩ := hf.choices cs hch
      cases hi : cs[dice.pick p % cs.length]? with
      | some v => simp only [hi]; exact finally_const (Or.inl ⟨v, seen, rfl, fun _ h => h, Or.inr (h2 v (List.mem_of_getElem? hi))⟩)
      | none =>
        simp only [hi]
        refine finally_const (Or.inr ⟨_, rfl, h1 ?_⟩)
        cases cs with
        | nil => rfl
        | cons a cs =>
          rw [List.getElem?_eq_none_iff] at hi
          have := Nat.mod_lt (dice.pick p) (show 0 < (a :: cs).length by simp)
          omega
    | none =>
      refine finally_bind (h := fun _ r => r) (field_ok hp hrec f true (hf.mocks hch) p seen hs) ?_ ?_
      · exact fun v s1 hs1 h => finally_const (Or.inl ⟨v, s1, rfl, hs1, Or.inr h⟩)
      · exact fun e he => finally_const (Or.inr ⟨e, rfl, he⟩)

/-- Values for the constructor, under the names of fields. -/
def Values (env : Env) (val : Bool) (fds : List FieldDef) (vs : Data) : Prop :=
  ∀ kv ∈ vs, ∃ fd ∈ fds, kv.1 = .str fd.name ∧ Given env val fd.field kv.2

/-- What the exceptions become on their way out of `get_mock_object`. -/
def Handled (E : Exc → Prop) (e : Exc) : Prop := ∃ e', E e' ∧ e = mockHandler e'

theorem loop_ok (hp : Program env val dice E ks) (hrec : RecOk env val E ks K rec) (over : Data) (p : List Nat) (fds : List FieldDef)
    (hf : ∀ fd ∈ fds, FieldOk env val dice E fd.field) (i : Nat) (seen : Seen) (hs : unseen ks seen ≤ K) :
    Finally (fun n => mockLoop (rec n) dice over p i fds seen) (Outcome (Handled E) seen (Values env val fds)) := by
  induction fds generalizing i seen with
  | nil => exact finally_const (Or.inl ⟨[], seen, rfl, fun _ h => h, fun _ h => by cases h⟩)
  | cons fd fds ih =>
    have hmore : ∀ {vs}, Values env val fds vs → Values env val (fd :: fds) vs := by
      intro vs h kv hkv
      obtain ⟨fd', h1, h2⟩ := h kv hkv
      exact ⟨fd', by simp [h1], h2⟩
    have ih := ih fun fd' h => hf fd' (by simp [h])
    simp only [mockLoop]
    cases hq : (over.has (.str fd.name) || seenClass seen fd.field.modelClass) with
    | true =>
      simp only [if_true]
      refine finally_bind (h := fun _ r => r) (ih (i + 1) seen hs) ?_ ?_
      · exact fun vs s1 h1 h2 => finally_const (Or.inl ⟨vs, s1, rfl, h1, hmore h2⟩)
      · exact fun e he => finally_const (Or.inr ⟨e, rfl, he⟩)
    | false =>
      simp only [Bool.false_eq_true, if_false]
      have hns : ∀ k, fd.field.modelClass = some k → k ∈ ks → unseen ks (seeClass k seen) < K := by
        intro k hk hm
        have hk' : k ∉ seen := by
          rw [Bool.or_eq_false_iff] at hq
          have := hq.2
          rw [hk] at this
          simpa [seenClass] using this
        exact Nat.lt_of_lt_of_le (unseen_lt hm hk') hs
      refine finally_bind (h := fun n r => match r with
        | .error e => .error (mockHandler e)
        | .ok (v, seen) =>
          match mockLoop (rec n) dice over p (i + 1) fds seen with
          | .error e => .error e
          | .ok (vs, seen) => .ok ((.str fd.name, v) :: vs, seen)) (mock_ok hp hrec fd.field (hf fd (by simp)) (i :: p) seen hns) ?_ ?_
      · intro v s1 h1 hv
        refine finally_bind (h := fun _ r => match r with
          | .error e => .error e
          | .ok (vs, seen) => .ok ((.str fd.name, v) :: vs, seen)) (ih (i + 1) s1 (Nat.le_trans (unseen_mono h1) hs)) ?_ ?_
        · intro vs s2 h2 hvs
          refine finally_const (Or.inl ⟨_, s2, rfl, fun d hd => h2 d (h1 d hd), ?_⟩)
          intro kv hkv
          rcases List.mem_cons.1 hkv with rfl | hkv
          · exact ⟨fd, by simp, rfl, hv⟩
          · exact hmore hvs kv hkv
        · exact fun e he => finally_const (Or.inr ⟨e, rfl, he⟩)
      · exact fun e he => finally_const (Or.inr ⟨_, rfl, e, he, rfl⟩)
end

theorem mem_update {d e : Data} {kv : Key × Val} (h : kv ∈ Dict.update d e) : kv ∈ d ∨ kv ∈ e := by
  induction e generalizing d with
  | nil => exact Or.inl h
  | cons a e ih =>
    rw [Dict.update_cons] at h
    rcases ih h with h | h
    · rcases mem_set h with h | h
      · exact Or.inl h
      · right; rw [h]; simp
    · right; simp [h]

theorem alias_undef {raw : Data} {name : String} (l : List String) (h : ∀ s ∈ l, s ≠ name → Dict.get? raw (.str s) = none) : aliasValue raw name l = .undef := by
  induction l with
  | nil => rfl
  | cons s l ih =>
    have ih := ih fun s' h' => h s' (by simp [h'])
    unfold aliasValue
    split
    · rename_i hs
      rw [h s (by simp) hs.2]
      exact ih
    · exact ih

/-- The input of a field among values under the names of fields is the value under its own name. -/
theorem given_input {env : Env} {val : Bool} {c : ClassDef} (hwf : c.WF) (hcl : c.NoAliasClash) {raw : Data} (hv : Values env val c.fields raw)
    {fd : FieldDef} (hfd : fd ∈ c.fields) :
    inputValue raw .empty fd = rawValue raw fd.name ∧ Given env val fd.field (rawValue raw fd.name) := by
  constructor
  · unfold inputValue
    simp only
    split
    · rename_i hu
      rw [(Val.isUndef_iff _).1 hu, ← ownNames_eq]
      refine alias_undef _ fun s hs hne => ?_
      rw [Dict.get?_eq_none]
      intro hk
      obtain ⟨kv, hkv, heq⟩ := List.mem_map.1 (show Key.str s ∈ raw.map (·.1) from hk)
      obtain ⟨fd', hfd', hn, _⟩ := hv kv hkv
      rw [heq] at hn
      injection hn with hn
      subst hn
      exact hne (hcl fd hfd fd' hfd' hs)
    · rfl
  · unfold rawValue
    cases hg : Dict.get? raw (.str fd.name) with
    | none => exact Or.inl rfl
    | some v =>
      obtain ⟨fd', hfd', hn, h⟩ := hv _ (Dict.mem_of_get? hg)
      injection hn with hn
      rw [name_inj hwf hfd hfd' hn]
      exact h

theorem given_fill {env : Env} {val : Bool} {dice : Dice} {E : Exc → Prop} {fd : FieldDef} (hf : FieldOk env val dice E fd.field) {v : Val}
    (h : Given env val fd.field v) : Accepts env val true fd.field (fillValue newCtx fd v) := by
  unfold fillValue
  cases hu : v.isUndef with
  | false =>
    simp [hu]
    rcases h with h | h
    · rw [hu] at h; cases h
    · exact h
  | true =>
    have h1 : newCtx.defaults = true := rfl
    have h2 : newCtx.init = true := rfl
    simp only [h1, h2, Bool.and_self, if_true, Bool.and_true]
    cases hd : fd.field.o.default.isUndef with
    | true => simp only [if_true]; exact accepts_none env val true _ (Or.inl rfl)
    | false =>
      simp only [Bool.false_eq_true, if_false]
      rcases hf.default with h | h
      · rw [hd] at h; cases h
      · exact h

/-- The constructor on acceptable values. -/
theorem build_ok {env : Env} {val : Bool} {dice : Dice} {E : Exc → Prop} {c : ClassDef} (hc : ClassOk env val dice E c) {raw : Data}
    (hv : Values env val c.fields raw) :
    ∃ d, Content env val c d ∧ ∃ N, ∀ n, N ≤ n → importBody (fieldConv env n) env newCtx c raw [] = .ok d ∧
      ∀ fd ∈ c.fields, ∃ w, Dict.get? d (.str fd.name) = some w ∧
        fieldConv env n newCtx true fd.field (fillValue newCtx fd (rawValue raw fd.name)) = .ok w := by
  classical
  have key : ∀ fd ∈ c.fields, Accepts env val true fd.field (fillValue newCtx fd (rawValue raw fd.name)) := fun fd hfd =>
    given_fill (hc.fields fd hfd) (given_input hc.wf hc.clash hv hfd).2
  have hex : ∃ res : FieldDef → Val, ∀ fd ∈ c.fields, Kept env val true fd.field (res fd) ∧
      ∃ N, ∀ n, N ≤ n → fieldConv env n newCtx true fd.field (fillValue newCtx fd (rawValue raw fd.name)) = .ok (res fd) := by
    refine ⟨fun fd => if h : fd ∈ c.fields then (key fd h).choose else .none, fun fd hfd => ?_⟩
    simp only [hfd, dif_pos]
    exact (key fd hfd).choose_spec
  obtain ⟨res, hres⟩ := hex
  obtain ⟨N, hN⟩ := uniform c.fields fun fd hfd => (hres fd hfd).2
  refine ⟨tabulate c.fields fun fd => some (res fd), ⟨_, rfl, fun fd hfd => ⟨res fd, rfl, (hres fd hfd).1⟩⟩, N, fun n hn => ⟨?_, ?_⟩⟩
  · refine (importBody_simple rfl hc.wf hc.simple).2 ⟨rogue_none ?_, _, fun fd hfd => ⟨res fd, ?_, by rw [(hres fd hfd).1.defined]; rfl⟩, rfl⟩
    · intro k hk
      obtain ⟨kv, hkv, heq⟩ := List.mem_map.1 (show k ∈ raw.map (·.1) from hk)
      obtain ⟨fd, hfd, h, _⟩ := hv kv hkv
      exact ⟨fd, hfd, by rw [← heq, h]⟩
    · rw [gentle_field (gentle_new val)]
      have : inputValue raw newCtx.mapping fd = rawValue raw fd.name := (given_input hc.wf hc.clash hv hfd).1
      rw [this]
      exact hN n hn fd hfd
  · exact fun fd hfd => ⟨res fd, tabulate_get hc.wf _ hfd, hN n hn fd hfd⟩

theorem object_ok {env : Env} {val : Bool} {dice : Dice} {E : Exc → Prop} {ks : List String} (hp : Program env val dice E ks) (fuel : Nat) :
    RecOk env val E ks fuel (fun n => mockObject env dice n fuel) := by
  induction fuel with
  | zero => intro p k seen _ h; omega
  | succ fuel ih =>
    rintro p k seen ⟨c, hc⟩ hu
    have hck := hp.classes k c hc
    simp only [mockObject, hc, mockValues]
    have hE : ∀ e, Handled E e → E e := by rintro e ⟨e', h, rfl⟩; exact hp.handled e' h
    refine finally_bind (h := fun n r => mockBuild env n c (match r with
      | .error e => .error e
      | .ok (vs, seen) => .ok (Dict.update vs [], seen))) (loop_ok hp ih [] p c.fields hck.fields 0 (seeClass k seen) (by omega)) ?_ ?_
    · intro vs s1 h1 hvs
      obtain ⟨d, hd, N, hN⟩ := build_ok hck hvs
      refine ⟨.ok (.inst k d, s1), Or.inl ⟨_, s1, rfl, fun x hx => h1 x (seeClass_sub _ _ _ hx), c, d, hc, rfl, hd⟩, N, fun n hn => ?_⟩
      have : newInstance (fieldConv env n) env newCtx c vs = .ok (.inst k d) :=
        (simple_newInstance hck.simple hck.pure).2 ⟨d, (hN n hn).1, by rw [(hp.named k c hc).1], fun h => by cases h⟩
      simp only [mockBuild, Dict.update_nil, this]
    · exact fun e he => finally_const (Or.inr ⟨e, rfl, hE e he⟩)

/-! ## Theorems -/

/-- The state of an object just built. -/
def built (d : Data) : Inst := { converted := d }

theorem init_ok {env : Env} {n : Nat} {c : ClassDef} {raw d : Data} (h : importBody (fieldConv env n) env newCtx c raw [] = .ok d) :
    instInit env n c raw [] false newCtx = .ok (built d) := by
  have hsrc : Inst.source { valid := [] } raw = raw := by
    unfold Inst.source
    cases raw <;> rfl
  have himp : runImport env n newCtx c (.inst ([] : Data)) raw = .ok d := by
    unfold runImport importLoop
    rw [if_neg (by decide)]
    exact h
  unfold instInit instConvert
  rw [hsrc]
  simp only [Bool.false_eq_true, if_false]
  have hctx : Inst.convertCtx { valid := [] } { newCtx with trusted := [] } = newCtx := rfl
  have hval : newCtx.validate = false := rfl
  rw [hctx]
  simp only [hval]
  have hcont : Inst.content { valid := [] } = [] := rfl
  rw [hcont, himp]
  rfl

theorem object_run {env : Env} {val : Bool} {dice : Dice} {E : Exc → Prop} {ks : List String} (hp : Program env val dice E ks) {c : ClassDef}
    (hc : env.cls c.name = some c) {over : Data} (ho : Values env val c.fields over) (hno : over.Nodup) {fuel : Nat} (hf : ks.length ≤ fuel) :
    Finally (fun n => getMockObject env dice n fuel c over) (fun r =>
      (∃ d, r = .ok (built d) ∧ Content env val c d ∧ ∃ N, ∀ n, N ≤ n → ∀ fd ∈ c.fields, ∀ v, Dict.get? over (.str fd.name) = some v → v.isUndef = false →
        ∃ w, Dict.get? d (.str fd.name) = some w ∧ fieldConv env n newCtx true fd.field v = .ok w) ∨ ∃ e, r = .error e ∧ Handled E e) := by
  have hck := hp.classes _ c hc
  have hun : unseen ks [c.name] ≤ fuel := Nat.le_trans (List.length_filter_le _ _) hf
  simp only [getMockObject, mockValues]
  refine finally_bind (h := fun n r => match (match r with
      | .error e => .error e
      | .ok (vs, seen) => .ok (Dict.update vs over, seen) : R (Data × Seen)) with
    | .error e => .error e
    | .ok (vs, _) => instInit env n c vs [] false newCtx) (loop_ok hp (object_ok hp fuel) over [] c.fields hck.fields 0 [c.name] hun) ?_ ?_
  · intro vs s1 _ hvs
    have hvals : Values env val c.fields (Dict.update vs over) := by
      intro kv hkv
      rcases mem_update hkv with h | h
      · exact hvs kv h
      · exact ho kv h
    obtain ⟨d, hd, N, hN⟩ := build_ok hck hvals
    refine ⟨.ok (built d), Or.inl ⟨d, rfl, hd, N, fun n hn fd hfd v hv hu => ?_⟩, N, fun n hn => init_ok (hN n hn).1⟩
    obtain ⟨w, h1, h2⟩ := (hN n hn).2 fd hfd
    have hr : rawValue (Dict.update vs over) fd.name = v := by
      unfold rawValue
      rw [Dict.get?_update _ _ hno, hv]
      rfl
    have hfi : fillValue newCtx fd v = v := by simp [fillValue, hu]
    rw [hr, hfi] at h2
    exact ⟨w, h1, h2⟩
  · exact fun e he => finally_const (Or.inr ⟨e, rfl, he⟩)

theorem content_get {env : Env} {val : Bool} {c : ClassDef} (hwf : c.WF) {d : Data} (h : Content env val c d) {fd : FieldDef} (hfd : fd ∈ c.fields) :
    ∃ w, Dict.get? d (.str fd.name) = some w ∧ Kept env val true fd.field w := by
  obtain ⟨res, rfl, hres⟩ := h.shape
  obtain ⟨w, hw, hk⟩ := hres fd hfd
  exact ⟨w, by rw [tabulate_get hwf res hfd, hw], hk⟩

theorem content_nodup {env : Env} {val : Bool} {c : ClassDef} (hwf : c.WF) {d : Data} (h : Content env val c d) : Dict.Nodup d := by
  obtain ⟨res, rfl, _⟩ := h.shape
  exact tabulate_nodup hwf res

theorem field?_mem {c : ClassDef} (hwf : c.WF) {fd : FieldDef} (hfd : fd ∈ c.fields) : c.field? fd.name = some fd := by
  unfold ClassDef.field?
  cases h : c.fields.find? (fun x => x.name == fd.name) with
  | none =>
    rw [List.find?_eq_none] at h
    exact absurd (h fd hfd) (by simp)
  | some x =>
    have h1 := List.mem_of_find?_eq_some h
    have h2 := List.find?_some h
    rw [name_inj hwf h1 hfd (by simpa using h2)]

/-- Attributes of an object without computed fields. -/
theorem attr {c : ClassDef} (hwf : c.WF) (hs : c.Simple) {fd : FieldDef} (hfd : fd ∈ c.fields) {I : Inst} {w : Val} (hl : I.lookup (.str fd.name) = some w)
    (hu : w.isUndef = false) : getAttr c I fd.name = .ok w := by
  unfold getAttr
  rw [field?_mem hwf hfd]
  simp only [(hs fd hfd).1, hl, definedOr, hu]
  rfl

theorem built_lookup (d : Data) (k : Key) : (built d).lookup k = Dict.get? d k := by
  unfold built Inst.lookup
  simp only [Dict.get?_nil]
  cases Dict.get? d k <;> rfl

/-- Ordinary options of `validate`: no `app_data`, no mapping, with conversion. -/
structure Ordinary (ctx : Ctx) : Prop where
  convert : ctx.convert = true
  mapping : ctx.mapping = .empty
  app : ctx.app = .dict []

/-- Every attribute of the object is filled where that is required, at every depth. -/
def Complete (env : Env) (c : ClassDef) (I : Inst) : Prop := ∀ fd ∈ c.fields, ∀ w, getAttr c I fd.name = .ok w → Filled env true fd.field w

theorem validate_built {env : Env} {dice : Dice} {E : Exc → Prop} {c : ClassDef} (hc : ClassOk env true dice E c) {d : Data} (hd : Content env true c d) :
    ∃ N, ∀ n, N ≤ n → ∀ ctx, Ordinary ctx →
      ((instValidate env n c (built d) ctx).1 = .ok () ↔ ctx.partial_ = true ∨ Complete env c (built d)) ∧
      ((instValidate env n c (built d) ctx).1 = .ok () → ∀ fd ∈ c.fields,
        getAttr c (instValidate env n c (built d) ctx).2 fd.name = getAttr c (built d) fd.name) := by
  obtain ⟨N, hN⟩ := content_body hc.wf hc.simple hd
  have hnd := content_nodup hc.wf hd
  have hcomp : Complete env c (built d) ↔ AllFilled env c d := by
    constructor
    · intro h fd hfd w hw
      obtain ⟨w', h1, h2⟩ := content_get hc.wf hd hfd
      rw [h1] at hw
      injection hw with hw
      subst hw
      exact h fd hfd w' (attr hc.wf hc.simple hfd (by rw [built_lookup, h1]) h2.defined)
    · intro h fd hfd w hw
      obtain ⟨w', h1, h2⟩ := content_get hc.wf hd hfd
      rw [attr hc.wf hc.simple hfd (by rw [built_lookup, h1]) h2.defined] at hw
      injection hw with hw
      subst hw
      exact h fd hfd w' h1
  refine ⟨N, fun n hn ctx ho => ?_⟩
  have hcontent : (built d).content = d := by
    unfold built Inst.content
    rw [update_nodup_nil hnd]
    exact Dict.update_nil _
  have hview : c.view d = d := by
    obtain ⟨res, rfl, _⟩ := id hd.shape
    exact view_tabulate hc.wf hc.simple res
  have hupd : d.update d = d := by
    have := Dict.update_idem (d := ([] : Data)) hnd
    rwa [update_nodup_nil hnd] at this
  have hg : Gentle true ((built d).convertCtx { ctx with validate := true, trusted := [] }) := by
    refine ⟨rfl, ?_, rfl, ho.mapping, ho.app, Or.inr ⟨rfl, rfl, rfl⟩⟩
    simp [Inst.convertCtx, ho.convert]
  have hpart : ((built d).convertCtx { ctx with validate := true, trusted := [] }).partial_ = ctx.partial_ := rfl
  have hconv : (built d).converted = d := rfl
  cases hq : ((built d).converted.isEmpty && ctx.partial_) with
  | true =>
    have hval : instValidate env n c (built d) ctx = (.ok (), built d) := by
      unfold instValidate
      rw [hq]
      rfl
    rw [Bool.and_eq_true] at hq
    rw [hval]
    exact ⟨⟨fun _ => Or.inl hq.2, fun _ => rfl⟩, fun _ _ _ => rfl⟩
  | false =>
    have hrun : (ctx.partial_ = true ∨ AllFilled env c d) →
        runValidate env n ((built d).convertCtx { ctx with validate := true, trusted := [] }) c (.inst (built d).content) d = .ok d := by
      intro h
      rw [simple_runValidate hc.simple hc.pure, hcontent, hview, hupd]
      exact ⟨hN n hn _ hg h, by rw [hg.app]; exact hc.validators rfl _ _⟩
    have hstate : ∀ I', instValidate env n c (built d) ctx = (.ok (), I') → AllFilled env c d ∨ ctx.partial_ = true := by
      intro I' h
      obtain ⟨d', h1, _, _⟩ := instValidate_ok hc.simple hc.pure rfl hq h
      rw [hconv, hcontent, hview, hupd] at h1
      cases hpp : ctx.partial_ with
      | true => exact Or.inr rfl
      | false => exact Or.inl (content_filled hc.wf hc.simple hd hg (by rw [hpart, hpp]) h1)
    have hok : (ctx.partial_ = true ∨ AllFilled env c d) → ∃ I', instValidate env n c (built d) ctx = (.ok (), I') := by
      intro h
      unfold instValidate
      rw [hq]
      simp only [Bool.false_eq_true, if_false]
      unfold instConvert
      simp only [if_true]
      have hI : ({ built d with raw := [] } : Inst) = built d := rfl
      have hsrc : (built d).source [] = d := rfl
      rw [hI, hsrc, hrun h]
      exact ⟨_, rfl⟩
    constructor
    · rw [hcomp]
      constructor
      · intro h
        exact (hstate _ (Prod.ext h rfl)).symm
      · intro h
        obtain ⟨I', h'⟩ := hok h
        rw [h']
    · intro h fd hfd
      have hprod : instValidate env n c (built d) ctx = (.ok (), (instValidate env n c (built d) ctx).2) := Prod.ext h rfl
      obtain ⟨d', h1, _, h3⟩ := instValidate_ok hc.simple hc.pure rfl hq hprod
      rw [hconv, hcontent, hview, hupd, hN n hn _ hg (hstate _ hprod).symm] at h1
      injection h1 with h1
      subst h1
      rw [h3]
      obtain ⟨w, h4, h5⟩ := content_get hc.wf hd hfd
      have hb := attr hc.wf hc.simple hfd (by rw [built_lookup, h4]) h5.defined
      rw [hb]
      refine attr hc.wf hc.simple hfd ?_ h5.defined
      simp only [Inst.lookup, Dict.get?_nil]
      exact h4

/-- No exception at all may occur while values are mocked. -/
def NoError : Exc → Prop := fun _ => False

/-- The exceptions of mocking: bounds that leave no room, an empty list of choices. -/
def NoRoom (e : Exc) : Prop := e = .other "MockCreationError" ∨ e = .other "AttributeError" ∨ e = .other "IndexError"

/-- **C103, construction**: if no bounds leave no room and no list of choices is empty, and if defaults, choices, overrides and the mocks of scalar types
are acceptable to their types, then `get_mock_object` builds an object - the constructor it ends with never rejects what was mocked, whatever the random
outcomes and however classes refer to one another; every field has a value; and an overridden field has the override, converted. -/
theorem C103_built (env : Env) (dice : Dice) (ks : List String) (hp : Program env false dice NoError ks) (c : ClassDef) (hc : env.cls c.name = some c)
    (over : Data) (ho : Values env false c.fields over) (hno : over.Nodup) (fuel : Nat) (hf : ks.length ≤ fuel) :
    ∃ I N, ∀ n, N ≤ n → getMockObject env dice n fuel c over = .ok I ∧
      (∀ fd ∈ c.fields, ∃ w, getAttr c I fd.name = .ok w) ∧
      (∀ fd ∈ c.fields, ∀ v, Dict.get? over (.str fd.name) = some v → v ≠ .undef →
        ∃ w, fieldConv env n newCtx true fd.field v = .ok w ∧ getAttr c I fd.name = .ok w) := by
  obtain ⟨r, hr, N, hN⟩ := object_run hp hc ho hno hf
  have hck := hp.classes _ c hc
  rcases hr with ⟨d, rfl, hd, M, hM⟩ | ⟨e, _, e', h, _⟩
  · have hat : ∀ fd ∈ c.fields, ∀ w, Dict.get? d (.str fd.name) = some w → getAttr c (built d) fd.name = .ok w := by
      intro fd hfd w hw
      obtain ⟨w', h1, h2⟩ := content_get hck.wf hd hfd
      rw [h1] at hw
      injection hw with hw
      subst hw
      exact attr hck.wf hck.simple hfd (by rw [built_lookup, h1]) h2.defined
    refine ⟨built d, max N M, fun n hn => ⟨hN n (by omega), fun fd hfd => ?_, fun fd hfd v hv hu => ?_⟩⟩
    · obtain ⟨w, h1, _⟩ := content_get hck.wf hd hfd
      exact ⟨w, hat fd hfd w h1⟩
    · obtain ⟨w, h1, h2⟩ := hM n (by omega) fd hfd v hv (isUndef_false hu)
      exact ⟨w, h2, hat fd hfd w h1⟩
  · exact h.elim

/-- **C103, validation**: if moreover choices, validators and bounds let these values pass, the object passes `validate(partial=True)`, it passes
`validate()` if and only if every required field is filled at every depth, and validation changes no attribute. -/
theorem C103_validates (env : Env) (dice : Dice) (ks : List String) (hp : Program env true dice NoError ks) (c : ClassDef) (hc : env.cls c.name = some c)
    (over : Data) (ho : Values env true c.fields over) (hno : over.Nodup) (fuel : Nat) (hf : ks.length ≤ fuel) :
    ∃ I N, ∀ n, N ≤ n → getMockObject env dice n fuel c over = .ok I ∧ ∀ ctx, Ordinary ctx →
      ((instValidate env n c I ctx).1 = .ok () ↔ ctx.partial_ = true ∨ Complete env c I) ∧
      ((instValidate env n c I ctx).1 = .ok () → ∀ fd ∈ c.fields, getAttr c (instValidate env n c I ctx).2 fd.name = getAttr c I fd.name) := by
  obtain ⟨r, hr, N, hN⟩ := object_run hp hc ho hno hf
  rcases hr with ⟨d, rfl, hd, _⟩ | ⟨e, _, e', h, _⟩
  · obtain ⟨M, hM⟩ := validate_built (hp.classes _ c hc) hd
    exact ⟨built d, max N M, fun n hn => ⟨hN n (by omega), hM n (by omega)⟩⟩
  · exact h.elim

/-- **C103, failures**: where bounds may leave no room or choices may be empty, the object is still built, or the exception is `AttributeError`
(what becomes of `MockCreationError`) or `IndexError` - never an error of conversion. -/
theorem C103_errors (env : Env) (dice : Dice) (ks : List String) (hp : Program env false dice NoRoom ks) (c : ClassDef) (hc : env.cls c.name = some c)
    (over : Data) (ho : Values env false c.fields over) (hno : over.Nodup) (fuel : Nat) (hf : ks.length ≤ fuel) :
    ∃ N, (∃ I, ∀ n, N ≤ n → getMockObject env dice n fuel c over = .ok I) ∨
      (∀ n, N ≤ n → getMockObject env dice n fuel c over = .error (.other "AttributeError")) ∨
      (∀ n, N ≤ n → getMockObject env dice n fuel c over = .error (.other "IndexError")) := by
  obtain ⟨r, hr, N, hN⟩ := object_run hp hc ho hno hf
  refine ⟨N, ?_⟩
  rcases hr with ⟨d, rfl, _⟩ | ⟨e, rfl, e', h, rfl⟩
  · exact Or.inl ⟨_, hN⟩
  · right
    rcases h with rfl | rfl | rfl
    · exact Or.inl hN
    · exact Or.inl hN
    · exact Or.inr hN

/-- **C103 and C73**: a mock that the type leaves as it is and lets pass (which C73 says of the built-in types) is acceptable in a field without further
validators; so the hypotheses on scalar mocks hold of the built-in types. -/
theorem C103_mocks_acceptable (env : Env) (val named : Bool) (l : Leaf) (o : FieldOpts) (ho : o.choices = none) (hv : o.validators = []) (hl : l.override = none)
    (v : Val) (hne : v.isEmpty = false) (h : Types.Mock.Accepted l v) : Accepts env val named (.mk (.leaf l) o) v := by
  refine accepts_of_kept (kept_leaf env val named l o v hne hl (h _).1 fun _ => ⟨⟨by rw [ho]; rfl, by rw [hv]; intro g hg; cases hg⟩, (h _).2⟩)

/-! ## The hypotheses are met, and needed -/

/-- `StringType(max_length=8)` -/
abbrev short : FType := .leaf (Types.stringType none (some 8) none)

/-- `class Person(Model): name = StringType(required=True, max_length=8); level = StringType(max_length=8, choices=['a', 'b'], default='a');
team = ModelType(Team, required=True); notes = DictType(StringType)` -/
def person : ClassDef where
  name := "Person"
  fields := [
    { name := "name", field := .mk short { required := true } },
    { name := "level", field := .mk short { choices := some [.str "a", .str "b"], default := .str "a" } },
    { name := "team", field := .mk (.model "Team") { required := true } },
    { name := "notes", field := .mk (.dict (.mk short {}) .ok) { required := true } }]

/-- `class Team(Model): members = ListType(ModelType(Person), min_size=1, max_size=3, required=True); tags = ListType(StringType(max_length=8))` -/
def team : ClassDef where
  name := "Team"
  fields := [
    { name := "members", field := .mk (.list (.mk (.model "Person") {}) (some 1) (some 3)) { required := true } },
    { name := "tags", field := .mk (.list (.mk short {}) none none) {} }]

/-- The classes of the sample. -/
def sampleEnv : Env where
  cls k := if k = "Person" then some person else if k = "Team" then some team else none
  isSub a b := a == b
  subs _ := []

/-- Random outcomes: optional fields are filled, the others depend on the place. -/
def sampleDice : Dice where
  fill _ := true
  pick p := p.length
  tape p := fun i => i + p.length
  leaf p _ := Types.Mock.string (some 8) none fun i => i * i + p.length

theorem short_mock {p : List Nat} {l : Leaf} {v : Val} (h : sampleDice.leaf p l = some v) :
    Types.Mock.Accepted (Types.stringType none (some 8) none) v ∧ v.isEmpty = false := by
  refine ⟨(Types.Mock.C73_string (some 8) none (fun i => i * i + p.length)).1 v h, ?_⟩
  simp only [sampleDice, Types.Mock.string] at h
  cases hx : Types.Mock.valueIn (Types.Mock.lift none) (Types.Mock.lift (some 8)) 0 0 ((fun i => i * i + p.length) 0) with
  | none => rw [hx] at h; cases h
  | some n => rw [hx] at h; simp only [Option.map_some] at h; injection h with h; rw [← h]; rfl

theorem short_room (p : List Nat) (l : Leaf) : sampleDice.leaf p l ≠ none := by
  intro h
  obtain ⟨a, b, h1, _⟩ := (Types.Mock.C73_string (some 8) none (fun i => i * i + p.length)).2.1 h
  cases h1

theorem short_mocked (val named : Bool) (o : FieldOpts) (ho : o.choices = none) (hv : o.validators = []) :
    TypeMocked sampleEnv val sampleDice NoError short named o := by
  intro p
  refine ⟨fun v h => ?_, fun h => absurd h (short_room p _)⟩
  obtain ⟨h1, h2⟩ := short_mock h
  exact C103_mocks_acceptable sampleEnv val named _ o ho hv rfl v h2 h1

theorem short_letter (val : Bool) (o : FieldOpts) (ho : o.choices = some [.str "a", .str "b"]) (hv : o.validators = []) (v : Val) (h : v = .str "a" ∨ v = .str "b") :
    Accepts sampleEnv val true (.mk short o) v := by
  have ha : Types.Mock.Accepted (Types.stringType none (some 8) none) v := by
    rcases h with rfl | rfl
    · exact Types.Mock.accepted_string (some 8) none "a" (by rintro m ⟨⟩; decide) (by rintro m ⟨⟩)
    · exact Types.Mock.accepted_string (some 8) none "b" (by rintro m ⟨⟩; decide) (by rintro m ⟨⟩)
  refine accepts_of_kept (kept_leaf _ val true _ o v (by rcases h with rfl | rfl <;> rfl) rfl (ha _).1 fun _ => ⟨⟨?_, by rw [hv]; intro g hg; cases hg⟩, (ha _).2⟩)
  rw [ho]
  rcases h with rfl | rfl <;> rfl

theorem no_validators {c : ClassDef} (h : c.validators = []) (mv d : Data) : validateModel c mv (.dict []) d = .ok ([], d) := by
  have key : ∀ fds, modelValidators c mv (.dict []) fds d = .ok ([], [], d) := by
    intro fds
    induction fds with
    | nil => rfl
    | cons fd fds ih => simp only [modelValidators, h, Dict.get?_nil, ite_self, ih]
  unfold validateModel
  rw [key]
  rfl

theorem person_ok (val : Bool) : ClassOk sampleEnv val sampleDice NoError person where
  wf := by unfold ClassDef.WF; decide
  simple := by
    intro fd hfd
    simp only [person, List.mem_cons, List.not_mem_nil, or_false] at hfd
    rcases hfd with rfl | rfl | rfl | rfl <;> exact ⟨rfl, rfl⟩
  clash := by
    intro fd hfd fd' _ h
    simp only [person, List.mem_cons, List.not_mem_nil, or_false] at hfd
    rcases hfd with rfl | rfl | rfl | rfl <;> simpa [ownNames, Mapping.empty, Mapping.entries, Dict.get?] using h
  pure := by intro nf h; cases h
  validators := fun _ mv d => no_validators rfl mv d
  fields := by
    intro fd hfd
    simp only [person, List.mem_cons, List.not_mem_nil, or_false] at hfd
    rcases hfd with rfl | rfl | rfl | rfl
    · exact ⟨Or.inl rfl, fun cs h => (by cases h), fun _ => short_mocked val true _ rfl rfl⟩
    · refine ⟨Or.inr (short_letter val _ rfl rfl _ (Or.inl rfl)), fun cs h => ?_, fun h => (by cases h)⟩
      cases h
      exact ⟨fun h => (by cases h), fun v hv => short_letter val _ rfl rfl _ (by simpa using hv)⟩
    · exact ⟨Or.inl rfl, fun cs h => (by cases h), fun _ => ⟨⟨team, rfl⟩, fun _ d => ⟨rfl, fun g hg => (by cases hg)⟩⟩⟩
    · exact ⟨Or.inl rfl, fun cs h => (by cases h), fun _ => Or.inl rfl⟩

theorem room {mn mx : Option Nat} (h : ∀ a b, mn = some a → mx = some b → a ≤ b) (r : Types.Mock.Tape) (e : Types.Mock.listLength mx mn r = none) : False := by
  obtain ⟨a, b, h1, h2, h3⟩ := (Types.Mock.C73_list mx mn r).2.1 e
  have := h a b h1 h2
  omega

theorem team_ok (val : Bool) : ClassOk sampleEnv val sampleDice NoError team where
  wf := by unfold ClassDef.WF; decide
  simple := by
    intro fd hfd
    simp only [team, List.mem_cons, List.not_mem_nil, or_false] at hfd
    rcases hfd with rfl | rfl <;> exact ⟨rfl, rfl⟩
  clash := by
    intro fd hfd fd' _ h
    simp only [team, List.mem_cons, List.not_mem_nil, or_false] at hfd
    rcases hfd with rfl | rfl <;> simpa [ownNames, Mapping.empty, Mapping.entries, Dict.get?] using h
  pure := by intro nf h; cases h
  validators := fun _ mv d => no_validators rfl mv d
  fields := by
    intro fd hfd
    simp only [team, List.mem_cons, List.not_mem_nil, or_false] at hfd
    rcases hfd with rfl | rfl
    · refine ⟨Or.inl rfl, fun cs h => (by cases h), fun _ => ⟨⟨⟨person, rfl⟩, fun _ d => ⟨rfl, fun g hg => (by cases hg)⟩⟩, fun p h => ?_, fun _ xs _ => ⟨rfl, fun g hg => (by cases hg)⟩⟩⟩
      exact room (by rintro a b ⟨⟩ ⟨⟩; decide) _ h
    · refine ⟨Or.inl rfl, fun cs h => (by cases h), fun _ => ⟨short_mocked val false _ rfl rfl, fun p h => ?_, fun _ xs _ => ⟨rfl, fun g hg => (by cases hg)⟩⟩⟩
      exact room (by rintro a b ⟨⟩) _ h

/-- The sample is a program of the kind considered. -/
theorem sample_program (val : Bool) : Program sampleEnv val sampleDice NoError ["Person", "Team"] where
  named := by
    intro k c h
    simp only [sampleEnv] at h
    split at h
    · cases h; rename_i hk; subst hk; exact ⟨rfl, by simp⟩
    · split at h
      · cases h; rename_i hk; subst hk; exact ⟨rfl, by simp⟩
      · cases h
  refl := by intro k; simp [sampleEnv]
  classes := by
    intro k c h
    simp only [sampleEnv] at h
    split at h
    · cases h; exact person_ok val
    · split at h
      · cases h; exact team_ok val
      · cases h
  handled := fun _ h => h.elim

/-- An override of the sample: `Person.get_mock_object(overrides={'level': 'b'})`. -/
theorem sample_over (val : Bool) : Values sampleEnv val person.fields [(.str "level", .str "b")] := by
  intro kv h
  simp only [List.mem_cons, List.not_mem_nil, or_false] at h
  subst h
  exact ⟨person.fields[1], by simp [person], rfl, Or.inr (short_letter val _ rfl rfl _ (Or.inr rfl))⟩

example : ∃ I N, ∀ n, N ≤ n → getMockObject sampleEnv sampleDice n 2 person [(.str "level", .str "b")] = .ok I ∧ ∀ ctx, Ordinary ctx →
    ((instValidate sampleEnv n person I ctx).1 = .ok () ↔ ctx.partial_ = true ∨ Complete sampleEnv person I) ∧
    ((instValidate sampleEnv n person I ctx).1 = .ok () → ∀ fd ∈ person.fields,
      getAttr person (instValidate sampleEnv n person I ctx).2 fd.name = getAttr person I fd.name) :=
  C103_validates sampleEnv sampleDice ["Person", "Team"] (sample_program true) person rfl _ (sample_over true) (by unfold Dict.Nodup; decide) 2 (by decide)

/-- A program with the single class `Odd` with the single field `x`. -/
def oddEnv (f : Field) : Env where
  cls k := if k = "Odd" then some { name := "Odd", fields := [{ name := "x", field := f }] } else none
  isSub a b := a == b
  subs _ := []

/-- The class `Odd`. -/
def odd (f : Field) : ClassDef := { name := "Odd", fields := [{ name := "x", field := f }] }

/-- Every mocked string is `'q'`. -/
def oddDice : Dice where
  fill _ := true
  pick _ := 0
  tape _ := fun _ => 0
  leaf _ _ := some (.str "q")

/-- The choices of the items of a list are not looked at: `ListType(StringType(choices=['a']), min_size=1, max_size=1)` is mocked as `['q']`, which the
constructor takes and `validate(partial=True)` refuses.  (The choices of the field itself are respected.) -/
theorem C103_counterexample_choices_of_items :
    getMockObject (oddEnv (.mk (.list (.mk (.leaf Samples.strLeaf) { choices := some [.str "a"] }) (some 1) (some 1)) {})) oddDice 5 5
      (odd (.mk (.list (.mk (.leaf Samples.strLeaf) { choices := some [.str "a"] }) (some 1) (some 1)) {})) [] = .ok { converted := [(.str "x", .list [.str "q"])] } ∧
    ∃ es d, (instValidate (oddEnv (.mk (.list (.mk (.leaf Samples.strLeaf) { choices := some [.str "a"] }) (some 1) (some 1)) {})) 5
      (odd (.mk (.list (.mk (.leaf Samples.strLeaf) { choices := some [.str "a"] }) (some 1) (some 1)) {}))
      { converted := [(.str "x", .list [.str "q"])] } { partial_ := true }).1 = .error (.data es d) := ⟨rfl, _, _, rfl⟩

/-- Dicts are mocked as `None`, which lists of required dicts do not take: the constructor raises `DataError`. -/
theorem C103_counterexample_required_items :
    ∃ es d, getMockObject (oddEnv (.mk (.list (.mk (.dict (.mk (.leaf Samples.strLeaf) {}) .ok) { required := true }) (some 1) (some 1)) {})) oddDice 5 5
      (odd (.mk (.list (.mk (.dict (.mk (.leaf Samples.strLeaf) {}) .ok) { required := true }) (some 1) (some 1)) {})) [] = .error (.data es d) := ⟨_, _, rfl⟩

/-- A required reference to the class itself is left `None`: the object passes `validate(partial=True)` but not `validate()`. -/
theorem C103_counterexample_incomplete :
    getMockObject (oddEnv (.mk (.model "Odd") { required := true })) oddDice 5 5 (odd (.mk (.model "Odd") { required := true })) [] =
      .ok { converted := [(.str "x", .none)] } ∧
    (instValidate (oddEnv (.mk (.model "Odd") { required := true })) 5 (odd (.mk (.model "Odd") { required := true })) { converted := [(.str "x", .none)] }
      { partial_ := true }).1 = .ok () ∧
    ∃ es d, (instValidate (oddEnv (.mk (.model "Odd") { required := true })) 5 (odd (.mk (.model "Odd") { required := true }))
      { converted := [(.str "x", .none)] } {}).1 = .error (.data es d) := ⟨rfl, rfl, _, _, rfl⟩

end Verif.Mocks
