import Verif.Core.Stable
import Verif.Props.Termination
import Verif.Props.Deep
import Verif.Samples

/-!
# C16: conversion is idempotent
-/
namespace Verif

mutual
/-- `P` holds of every type node of a type (not looking into classes). -/
def FType.Nodes (P : FType → Prop) : FType → Prop
  | .leaf l => P (.leaf l)
  | .list inner mn mx => P (.list inner mn mx) ∧ inner.Nodes P
  | .dict inner co => P (.dict inner co) ∧ inner.Nodes P
  | .model k => P (.model k)
  | .poly p => P (.poly p)
/-- The same for a field. -/
def Field.Nodes (P : FType → Prop) : Field → Prop
  | .mk t _ => t.Nodes P
end

/-- A scalar type whose conversion is idempotent (and yields a proper value). -/
structure Leaf.Idempotent (l : Leaf) : Prop where
  native : ∀ app v w, v.isEmpty = false → l.toNative app v = .ok w → w.isEmpty = false ∧ l.toNative app w = .ok w
  override : ∀ g, l.override = some g → ∀ b app v w, v.isEmpty = false → g b app v = .ok w → w.isEmpty = false ∧ g b app w = .ok w

/-- What idempotence needs of a single type: idempotent scalars, idempotent key coercion;
polymorphic fields are used for conversion only and resolve to allowed classes. -/
def StableNode (env : Env) (validate : Bool) : FType → Prop
  | .leaf l => l.Idempotent
  | .dict _ co => ∀ k k', co k = .ok k' → co k' = .ok k'
  | .poly p => validate = false ∧ ∀ v k c, p.findModel env v = .ok k → env.cls k = some c →
      p.allowed env (.inst c.name []) = true
  | _ => True

/-- No alias of a field is the name of another field. -/
def ClassDef.NoAliasClash (c : ClassDef) : Prop :=
  ∀ fd ∈ c.fields, ∀ fd' ∈ c.fields, fd'.name ∈ ownNames .empty fd → fd'.name = fd.name

/-- What idempotence needs of a class. -/
structure ClassDef.Stable (env : Env) (validate : Bool) (c : ClassDef) : Prop where
  wf : c.WF
  simple : c.Simple
  pure : PureValidators c
  clash : c.NoAliasClash
  nodes : ∀ fd ∈ c.fields, fd.field.Nodes (StableNode env validate)

/-- What idempotence needs of the class table: classes are registered under their own name,
and every class is a subclass of itself. -/
structure Env.Stable (env : Env) (validate : Bool) : Prop where
  named : ∀ k c, env.cls k = some c → c.name = k
  refl : ∀ k, env.isSub k k = true
  classes : ∀ k c, env.cls k = some c → c.Stable env validate

/-- The contexts considered: plain conversion, or validation with conversion; no trusted data;
nested models are made into instances (or there is no subclassing); either values are initialised
or there is no mapping. -/
structure Ctx.Plain (env : Env) (ctx : Ctx) : Prop where
  trusted : ctx.trusted = []
  mode : (ctx.conv = .imp ∧ ctx.validate = false) ∨ (ctx.conv = .val ∧ ctx.validate = true)
  convert : ctx.convert = true
  oo : ctx.oo = true ∨ ∀ a b, env.isSub a b = true → a = b
  names : ctx.init = true ∨ ctx.mapping = .empty

/-! ## Lemmas -/

theorem Ctx.Plain.sub {env : Env} {ctx : Ctx} (h : ctx.Plain env) (name : String) : (subCtx env ctx name).Plain env := by
  obtain ⟨m, hm⟩ := subCtx_eq (env := env) h.trusted name
  have hmap : ctx.mapping = .empty → m = .empty := by
    intro he
    have : (subCtx env ctx name).mapping = m := by rw [hm]
    rw [← this]
    simp [subCtx, he, Mapping.empty, Mapping.sub]
  rw [hm]
  exact ⟨h.trusted, h.mode, h.convert, h.oo, h.names.imp id hmap⟩

theorem Ctx.Plain.sub_validate {env : Env} {ctx : Ctx} (h : ctx.Plain env) (name : String) :
    (subCtx env ctx name).validate = ctx.validate := by
  obtain ⟨m, hm⟩ := subCtx_eq (env := env) h.trusted name
  rw [hm]

theorem simple_runMutate {rec : Rec} {ctx : Ctx} {c : ClassDef} (hs : c.Simple) (raw : Data) :
    runMutate rec ctx c (.inst []) raw = .ok ⟨[], [], raw⟩ ∧
    runMutate rec ctx c (.same false) raw = .ok ⟨[], raw, raw⟩ ∧
    runMutate rec ctx c (.same true) raw = .error (.other "AttributeError") := by
  simp [runMutate, simple_settable hs, runSetters, view_empty]

theorem simple_validateFn {rec : Rec} {env : Env} {ctx : Ctx} {c : ClassDef} (hs : c.Simple)
    (hp : PureValidators c) {raw d : Data} :
    validateFn rec env ctx c (.inst []) raw = .ok d ↔
      importBody rec env ctx c raw [] = .ok d ∧ validateModel c [] ctx.app d = .ok ([], d) := by
  constructor
  · intro h
    obtain ⟨m, d0, h1, h2, h3⟩ := validateFn_ok h
    rw [(simple_runMutate hs raw).1] at h1
    injection h1 with h1
    subst h1
    have := validateModel_pure hp h3
    subst this
    exact ⟨h2, h3⟩
  · rintro ⟨h1, h2⟩
    unfold validateFn
    rw [(simple_runMutate hs raw).1]
    simp only [h1, h2]
    rfl

theorem simple_newInstance {rec : Rec} {env : Env} {ctx : Ctx} {c : ClassDef} (hs : c.Simple)
    (hp : PureValidators c) {raw : Data} {w : Val} :
    newInstance rec env ctx c raw = .ok w ↔
      ∃ d, importBody rec env ctx c raw [] = .ok d ∧ w = .inst c.name d ∧
        (ctx.validate = true → validateModel c [] ctx.app d = .ok ([], d)) := by
  unfold newInstance
  cases hv : ctx.validate with
  | true =>
    simp only [if_true]
    constructor
    · intro h
      split at h
      · cases h
      · rename_i d hd
        injection h with h
        have := (simple_validateFn hs hp).1 hd
        exact ⟨d, this.1, h.symm, fun _ => this.2⟩
    · rintro ⟨d, h1, rfl, h2⟩
      rw [(simple_validateFn hs hp).2 ⟨h1, h2 (by simp)⟩]
  | false =>
    simp only [importLoop, hv, Bool.false_eq_true, if_false]
    constructor
    · intro h
      split at h
      · cases h
      · rename_i d hd
        injection h with h
        exact ⟨d, hd, h.symm, by simp⟩
    · rintro ⟨d, h1, rfl, _⟩
      rw [h1]

theorem dictLoop_fix {f : Val → R Val} {co : Key → R Key} (kvs : List (Key × Val)) (d : Data)
    (hf : ∀ kv ∈ kvs, f kv.2 = .ok kv.2 ∧ co kv.1 = .ok kv.1) (hnd : Dict.Nodup (d ++ kvs)) :
    dictLoop f co kvs d [] = .ok (d ++ kvs, []) := by
  induction kvs generalizing d with
  | nil => simp [dictLoop]
  | cons kv kvs ih =>
    obtain ⟨k, x⟩ := kv
    have h := hf (k, x) (by simp)
    simp only [] at h
    have hset : d.set k x = d ++ [(k, x)] := by
      apply set_fresh
      unfold Dict.Nodup Dict.keys at hnd
      rw [List.map_append, List.nodup_append] at hnd
      intro hm
      exact hnd.2.2 k hm k (by simp) rfl
    rw [dictLoop, h.1]
    simp only [h.2]
    rw [hset, ih _ (fun kv hm => hf kv (by simp [hm])) (by simpa using hnd)]
    simp

theorem dictConv_fix {f : Val → R Val} {co : Key → R Key} {kvs : List (Key × Val)}
    (hf : ∀ kv ∈ kvs, f kv.2 = .ok kv.2 ∧ co kv.1 = .ok kv.1) (hnd : Dict.Nodup kvs) :
    dictConv f co kvs = .ok (.dict kvs) := by
  unfold dictConv
  rw [dictLoop_fix kvs [] hf (by simpa using hnd)]
  simp

theorem mem_set {d : Data} {k : Key} {y : Val} {kv : Key × Val} (h : kv ∈ Dict.set d k y) :
    kv ∈ d ∨ kv = (k, y) := by
  induction d with
  | nil => simp [Dict.set] at h; exact Or.inr h
  | cons a d ih =>
    obtain ⟨ak, av⟩ := a
    simp only [Dict.set] at h
    split at h
    · rename_i heq
      rcases List.mem_cons.1 h with h | h
      · right; rw [h, heq]
      · exact Or.inl (by simp [h])
    · rcases List.mem_cons.1 h with h | h
      · exact Or.inl (by simp [h])
      · rcases ih h with h | h
        · exact Or.inl (by simp [h])
        · exact Or.inr h

theorem dictLoop_origin {f : Val → R Val} {co : Key → R Key} {kvs : List (Key × Val)} {d d' : Data} {es es' : Errs}
    (h : dictLoop f co kvs d es = .ok (d', es')) :
    ∀ kv ∈ d', kv ∈ d ∨ ∃ k x, f x = .ok kv.2 ∧ co k = .ok kv.1 := by
  induction kvs generalizing d es with
  | nil => simp [dictLoop] at h; intro kv hkv; rw [← h.1] at hkv; exact Or.inl hkv
  | cons kx kvs ih =>
    obtain ⟨k0, x0⟩ := kx
    rw [dictLoop_cons] at h
    cases he : convEntry f co k0 x0 with
    | ok p =>
      obtain ⟨k', y⟩ := p
      rw [he] at h
      intro kv hkv
      have hy : f x0 = .ok y ∧ co k0 = .ok k' := by
        unfold convEntry at he
        split at he
        · cases he
        · rename_i y' hy'
          split at he
          · cases he
          · rename_i k'' hk''
            injection he with he; injection he with h1 h2; rw [← h2, ← h1]; exact ⟨hy', hk''⟩
      rcases ih h kv hkv with h1 | h1
      · rcases mem_set h1 with h1 | h1
        · exact Or.inl h1
        · right; exact ⟨k0, x0, by rw [h1]; exact hy⟩
      · exact Or.inr h1
    | error e =>
      rw [he] at h
      simp only [] at h
      split at h
      · exact ih h
      · cases h

theorem dictConv_origin {f : Val → R Val} {co : Key → R Key} {kvs : List (Key × Val)} {w : Val}
    (h : dictConv f co kvs = .ok w) :
    ∃ d, w = .dict d ∧ Dict.Nodup d ∧ ∀ kv ∈ d, ∃ k x, f x = .ok kv.2 ∧ co k = .ok kv.1 := by
  unfold dictConv at h
  split at h
  · cases h
  · rename_i d es hl
    split at h
    · injection h with h
      refine ⟨d, h.symm, (dictLoop_spec hl).2.2.2.2.2 (show Dict.Nodup [] from List.nodup_nil), fun kv hkv => ?_⟩
      rcases dictLoop_origin hl kv hkv with h | h
      · cases h
      · exact h
    · cases h

theorem listConv_of {f : Val → R Val} {xs ys : List Val} (h : All2 (fun x y => f x = .ok y) xs ys) :
    listConv f xs = .ok (.list ys) := by
  have : ∀ i, listLoop f i xs = .ok (ys, []) := by
    induction h with
    | nil => intro i; rfl
    | cons h1 _ ih => intro i; simp only [listLoop, h1, ih]
  simp [listConv, this]

/-- The recursive calls are idempotent. -/
def RecStable (env : Env) (validate : Bool) (rec : Rec) : Prop :=
  ∀ ctx b f v w, ctx.Plain env → ctx.validate = validate → f.Nodes (StableNode env validate) →
    rec ctx b f v = .ok w → rec ctx b f w = .ok w ∧ (w.isUndef = true → v.isUndef = true)

theorem importBody_stable {env : Env} {val : Bool} {rec : Rec} (hrec : RecStable env val rec) {ctx : Ctx}
    (hctx : ctx.Plain env) (hval : ctx.validate = val) {c : ClassDef} (hc : c.Stable env val) {raw d : Data}
    (h : importBody rec env ctx c raw [] = .ok d) :
    importBody rec env ctx c d [] = .ok d ∧ c.view d = d := by
  obtain ⟨_, res, hres, rfl⟩ := (importBody_simple hctx.trusted hc.wf hc.simple).1 h
  refine ⟨(importBody_simple hctx.trusted hc.wf hc.simple).2 ⟨?_, res, ?_, rfl⟩, view_tabulate hc.wf hc.simple res⟩
  · unfold rogueKeys
    split
    · rw [List.filter_eq_nil_iff]
      intro k hk
      obtain ⟨fd, hfd, rfl, _⟩ := tabulate_keys.1 hk
      have hm : Key.str fd.name ∈ (acceptedKeys ctx.mapping c).map Key.str :=
        List.mem_map.2 ⟨fd.name, by
          unfold acceptedKeys
          exact List.mem_append_left _ (List.mem_flatMap.2 ⟨fd, hfd, by simp [inputKeys]⟩), rfl⟩
      simpa using hm
    · rfl
  · intro fd hfd
    obtain ⟨w, hw, hr⟩ := hres fd hfd
    have hget := tabulate_get hc.wf res hfd
    have hfctx : (if fd.field.ty.isCompound then subCtx env ctx fd.name else ctx).Plain env := by
      split
      · exact hctx.sub _
      · exact hctx
    have hfval : (if fd.field.ty.isCompound then subCtx env ctx fd.name else ctx).validate = val := by
      split
      · rw [hctx.sub_validate, hval]
      · exact hval
    have hst := hrec _ _ _ _ _ hfctx hfval (hc.nodes fd hfd) hw
    refine ⟨w, ?_, hr⟩
    cases hu : w.isUndef with
    | false =>
      rw [hu] at hr
      simp only [Bool.false_eq_true, if_false] at hr
      have hin : inputValue (tabulate c.fields res) ctx.mapping fd = w := by
        have : rawValue (tabulate c.fields res) fd.name = w := by simp [rawValue, hget, hr]
        simp [inputValue, this, hu]
      rw [hin]
      have : fillValue ctx fd w = w := by simp [fillValue, hu]
      rw [this]
      exact hst.1
    | true =>
      rw [hu] at hr
      simp only [if_true] at hr
      -- the field had no value at all
      have hv := hst.2 hu
      have hni : ctx.init = false := by
        cases hi : ctx.init with
        | false => rfl
        | true =>
          exfalso
          have := fillValue_defined ctx fd (inputValue raw ctx.mapping fd) hi
          simp [this] at hv
      have hmap : ctx.mapping = .empty := hctx.names.resolve_left (by simp [hni])
      have h0 : (inputValue raw ctx.mapping fd).isUndef = true := by
        cases h0 : (inputValue raw ctx.mapping fd).isUndef with
        | true => rfl
        | false =>
          exfalso
          have : fillValue ctx fd (inputValue raw ctx.mapping fd) = inputValue raw ctx.mapping fd := by
            simp [fillValue, h0]
          rw [this, h0] at hv
          cases hv
      have hin : inputValue (tabulate c.fields res) ctx.mapping fd = .undef := by
        rw [hmap]
        apply inputValue_absent
        intro s hs
        rw [Dict.get?_eq_none]
        intro hk
        obtain ⟨fd', hfd', heq, hsome⟩ := tabulate_keys.1 hk
        injection heq with heq
        subst heq
        have := name_inj hc.wf hfd' hfd (hc.clash fd hfd fd' hfd' hs)
        subst this
        rw [hr] at hsome
        cases hsome
      rw [hin, ← (Val.isUndef_iff _).1 h0]
      exact hw

theorem modelInto_stable {env : Env} {val : Bool} {rec : Rec} (hrec : RecStable env val rec) {ctx : Ctx}
    (hctx : ctx.Plain env) (hval : ctx.validate = val) {c : ClassDef} (hc : c.Stable env val) {raw : Data} {bi : Bool}
    {w : Val} (h : modelInto rec env ctx c raw bi = .ok w) :
    (ctx.oo = true ∧ ∃ d, w = .inst c.name d ∧ c.view d = d ∧ ∀ b, modelInto rec env ctx c d b = .ok w) ∨
    (ctx.oo = false ∧ ∃ d, w = .dict d ∧ modelInto rec env ctx c d false = .ok w) := by
  unfold modelInto at h ⊢
  cases hoo : ctx.oo with
  | true =>
    simp only [hctx.convert, hoo, Bool.and_true, if_true] at h ⊢
    left
    obtain ⟨d, h1, rfl, h2⟩ := (simple_newInstance hc.simple hc.pure).1 h
    obtain ⟨h3, h4⟩ := importBody_stable hrec hctx hval hc h1
    exact ⟨by simp, d, rfl, h4, fun _ => (simple_newInstance hc.simple hc.pure).2 ⟨d, h3, rfl, h2⟩⟩
  | false =>
    simp only [hctx.convert, hoo, Bool.and_false, Bool.false_eq_true, if_false] at h ⊢
    right
    have key : ∀ b raw w, (match importLoop rec env ctx c (.same b) raw with
        | .error e => .error e | .ok d => .ok (.dict d) : R Val) = .ok w →
        ∃ d, w = .dict d ∧ importBody rec env ctx c raw [] = .ok d := by
      intro b raw w h
      split at h
      · cases h
      · rename_i d hd
        injection h with h
        refine ⟨d, h.symm, ?_⟩
        unfold importLoop at hd
        split at hd
        · cases b with
          | true => rw [(simple_runMutate hc.simple raw).2.2] at hd; cases hd
          | false => rw [(simple_runMutate hc.simple raw).2.1] at hd; exact hd
        · exact hd
    obtain ⟨d, rfl, h1⟩ := key _ _ _ h
    obtain ⟨h3, _⟩ := importBody_stable hrec hctx hval hc h1
    refine ⟨by simp, d, rfl, ?_⟩
    have : importLoop rec env ctx c (.same false) d = .ok d := by
      unfold importLoop
      split
      · rw [(simple_runMutate hc.simple d).2.1]; exact h3
      · exact h3
    rw [this]

theorem convertF_stable {env : Env} {val : Bool} (henv : env.Stable val) {rec : Rec} (hrec : RecStable env val rec)
    {ctx : Ctx} (hctx : ctx.Plain env) (hval : ctx.validate = val) {f : Field}
    (hf : f.Nodes (StableNode env val)) {v w : Val} (hve : v.isEmpty = false) (h : convertF rec env ctx f v = .ok w) :
    convertF rec env ctx f w = .ok w ∧ w.isEmpty = false := by
  obtain ⟨t, o⟩ := f
  unfold Field.Nodes at hf
  unfold convertF at h ⊢
  simp only [Field.ty_mk] at h ⊢
  cases t with
  | leaf l =>
    simp only [] at h ⊢
    unfold FType.Nodes StableNode at hf
    have := hf.native _ _ _ hve h
    exact ⟨this.2, this.1⟩
  | list inner mn mx =>
    simp only [] at h ⊢
    unfold FType.Nodes at hf
    split at h
    · cases h
    · rename_i xs hxs
      obtain ⟨ys, rfl, hall⟩ := listConv_ok h
      refine ⟨?_, rfl⟩
      simp only [coerceList]
      apply listConv_of
      have hfix : ∀ y ∈ ys, rec ctx false inner y = .ok y := by
        intro y hy
        obtain ⟨x, _, hx⟩ := all2_mem hall y hy
        exact (hrec _ _ _ _ _ hctx hval hf.2 hx).1
      clear hall h
      induction ys with
      | nil => exact .nil
      | cons y ys ih => exact .cons (hfix y (by simp)) (ih fun y hy => hfix y (by simp [hy]))
  | dict inner co =>
    simp only [] at h ⊢
    unfold FType.Nodes StableNode at hf
    split at h
    · obtain ⟨d, rfl, hnd, hall⟩ := dictConv_origin h
      refine ⟨?_, rfl⟩
      simp only []
      apply dictConv_fix _ hnd
      intro kv hkv
      obtain ⟨k, x, h1, h2⟩ := hall kv hkv
      exact ⟨(hrec _ _ _ _ _ hctx hval hf.2 h1).1, hf.1 _ _ h2⟩
    · cases h
  | model cls =>
    simp only [] at h ⊢
    unfold modelConv at h
    split at h
    · rename_i k d
      split at h
      · rename_i hsub
        split at h
        · rename_i c hc
          have hst := henv.classes _ _ hc
          have hn := henv.named _ _ hc
          rcases modelInto_stable hrec hctx hval hst h with ⟨hoo, d', rfl, hview, hre⟩ | ⟨hoo, d', rfl, hre⟩
          · refine ⟨?_, rfl⟩
            simp only [modelConv]
            rw [hn, hsub]
            simp only [if_true, hc, hview]
            rw [hre true, hn]
          · refine ⟨?_, rfl⟩
            have hk : k = cls := hctx.oo.resolve_left (by simp [hoo]) _ _ hsub
            subst hk
            simp only [modelConv, hc]
            exact hre
        · cases h
      · cases h
    · split at h
      · rename_i c hc
        have hst := henv.classes _ _ hc
        have hn := henv.named _ _ hc
        rcases modelInto_stable hrec hctx hval hst h with ⟨hoo, d', rfl, hview, hre⟩ | ⟨hoo, d', rfl, hre⟩
        · refine ⟨?_, rfl⟩
          simp only [modelConv]
          rw [hn, henv.refl]
          simp only [if_true, hc, hview]
          rw [hre true, hn]
        · refine ⟨?_, rfl⟩
          simp only [modelConv, hc]
          exact hre
      · cases h
    · cases h
  | poly p =>
    simp only [] at h ⊢
    unfold FType.Nodes StableNode at hf
    have hv : ctx.validate = false := by rw [hval]; exact hf.1
    have hallow : p.allowed env w = true := by
      unfold polyConv at h
      split at h
      · rename_i ha
        injection h with h
        subst h
        simpa [hv] using ha
      · split at h
        · cases h
        · split at h
          · cases h
          · rename_i k hk
            split at h
            · cases h
            · rename_i c hc
              have hst := henv.classes _ _ hc
              have hal := hf.2 _ _ _ hk hc
              have key : ∀ raw, newInstance rec env ctx c raw = .ok w → p.allowed env w = true := by
                intro raw h
                obtain ⟨d, _, rfl, _⟩ := (simple_newInstance hst.simple hst.pure).1 h
                exact hal
              split at h
              · exact key _ h
              · exact key _ h
              · split at h
                · cases h
                · exact key _ h
    refine ⟨by simp [polyConv, hv, hallow], ?_⟩
    cases w <;> simp_all [PolySpec.allowed, Val.isEmpty]

theorem validateF_stable {env : Env} {val : Bool} (henv : env.Stable val) {rec : Rec} (hrec : RecStable env val rec)
    {ctx : Ctx} (hctx : ctx.Plain env) (hval : ctx.validate = val) {f : Field}
    (hf : f.Nodes (StableNode env val)) {v w : Val} (hve : v.isEmpty = false) (h : validateF rec env ctx f v = .ok w) :
    validateF rec env ctx f w = .ok w ∧ w.isEmpty = false := by
  unfold validateF at h ⊢
  cases hov : f.ty.override with
  | some g =>
    rw [hov] at h
    simp only [] at h ⊢
    obtain ⟨t, o⟩ := f
    cases t with
    | leaf l =>
      unfold Field.Nodes FType.Nodes StableNode at hf
      have := hf.override g hov _ _ _ _ hve h
      exact ⟨this.2, this.1⟩
    | _ => cases hov
  | none =>
    rw [hov] at h
    simp only [hctx.convert, if_true] at h ⊢
    split at h
    · cases h
    · rename_i w' hw'
      obtain ⟨rfl, hrun⟩ := finishValidation_ok h
      obtain ⟨h1, h2⟩ := convertF_stable henv hrec hctx hval hf hve hw'
      rw [h1]
      exact ⟨h, h2⟩

theorem fieldConv_stable {env : Env} {val : Bool} (henv : env.Stable val) (n : Nat) :
    RecStable env val (fieldConv env n) := by
  induction n with
  | zero => intro ctx b f v w _ _ _ h; cases h
  | succ n ih =>
    intro ctx b f v w hctx hval hf h
    simp only [fieldConv] at h ⊢
    have h0 := h
    unfold fieldConvF at h
    split at h
    · cases h
    · rename_i hreq
      split at h
      · rename_i he
        injection h with h
        subst h
        exact ⟨h0, id⟩
      · rename_i hve
        have hve : v.isEmpty = false := by simpa using hve
        have hne : convertF (fieldConv env n) env ctx f v = .ok w ∨ validateF (fieldConv env n) env ctx f v = .ok w := by
          cases hcv : ctx.conv with
          | imp => rw [hcv] at h; exact Or.inl h
          | val => rw [hcv] at h; exact Or.inr h
        have hwe : w.isEmpty = false := by
          rcases hne with h | h
          · exact (convertF_stable henv ih hctx hval hf hve h).2
          · exact (validateF_stable henv ih hctx hval hf hve h).2
        refine ⟨?_, fun hu => ?_⟩
        · unfold fieldConvF
          have : requiredFails ctx b f w = false := by simp [requiredFails, hwe]
          rw [this, hwe]
          simp only [Bool.false_eq_true, if_false]
          cases hcv : ctx.conv with
          | imp => rw [hcv] at h; exact (convertF_stable henv ih hctx hval hf hve h).1
          | val => rw [hcv] at h; exact (validateF_stable henv ih hctx hval hf hve h).1
        · rw [(Val.isUndef_iff w).1 hu] at hwe
          cases hwe

/-! ## The property -/

/-- C16 (engine part).  Convert some input, then convert the result again (as a mapping, or as the
resulting instance, whose content as seen by `dict(m)` is the same): the second conversion succeeds
and yields the same data, at any nesting depth.  The same for validation. -/
theorem C16_conversion_idempotent (env : Env) (n : Nat) (ctx : Ctx) (c : ClassDef)
    (henv : env.Stable ctx.validate) (hc : c.Stable env ctx.validate) (hctx : ctx.Plain env) (raw d : Data) :
    (runImport env n ctx c (.inst []) raw = .ok d →
      runImport env n ctx c (.inst []) d = .ok d ∧ c.view d = d) ∧
    (ctx.validate = true → runValidate env n ctx c (.inst []) raw = .ok d →
      runValidate env n ctx c (.inst []) d = .ok d ∧ c.view d = d) := by
  have hrec := fieldConv_stable henv n
  constructor
  · intro h
    have key : ∀ r, runImport env n ctx c (.inst []) r = importBody (fieldConv env n) env ctx c r [] := by
      intro r
      unfold runImport importLoop
      split
      · rw [(simple_runMutate hc.simple r).1]
      · rfl
    rw [key] at h ⊢
    exact importBody_stable hrec hctx rfl hc h
  · intro _ h
    unfold runValidate at h ⊢
    obtain ⟨h1, h2⟩ := (simple_validateFn hc.simple hc.pure).1 h
    obtain ⟨h3, h4⟩ := importBody_stable hrec hctx rfl hc h1
    exact ⟨(simple_validateFn hc.simple hc.pure).2 ⟨h3, h2⟩, h4⟩

/-- C16, one field: lists, dicts and nested models of any depth. -/
theorem C16_field_idempotent (env : Env) (n : Nat) (ctx : Ctx) (henv : env.Stable ctx.validate)
    (hctx : ctx.Plain env) (named : Bool) (f : Field) (hf : f.Nodes (StableNode env ctx.validate)) (v w : Val)
    (h : fieldConv env n ctx named f v = .ok w) : fieldConv env n ctx named f w = .ok w :=
  (fieldConv_stable henv n ctx named f v w hctx rfl hf h).1

/-! ## Where idempotence fails -/

/-- `class A(Model): a = IntType(deserialize_from='b'); b = IntType(deserialize_from='bb')` -/
def Samples.aliased : ClassDef where
  name := "A"
  fields := [{ name := "a", field := .mk (.leaf Samples.intLeaf) { deserializeFrom := ["b"] } },
             { name := "b", field := .mk (.leaf Samples.intLeaf) { deserializeFrom := ["bb"] } }]

/-- The name condition is needed: when an alias is the name of another field and values are not
initialised (`init=False`), converting `{'bb': 2}` gives `{'b': 2}`, and converting this gives
`{'a': 2, 'b': 2}`. -/
theorem C16_counterexample_alias_clash :
    runImport Samples.env 3 { oo := true } Samples.aliased (.inst []) [(.str "bb", .int 2)]
      = .ok [(.str "b", .int 2)] ∧
    runImport Samples.env 3 { oo := true } Samples.aliased (.inst []) [(.str "b", .int 2)]
      = .ok [(.str "a", .int 2), (.str "b", .int 2)] := ⟨rfl, rfl⟩

/-- `PolyModelType([A, B])` without claim hooks. -/
def Samples.zoo : ClassDef where
  name := "Zoo"
  fields := [{ name := "pet", field := .mk (.poly ⟨["Cat", "Dog"], false, none⟩) {} }]
/-- Classes `Cat(name)` and `Dog(name, chip)`. -/
def Samples.cat : ClassDef where
  name := "Cat"
  fields := [{ name := "name", field := .mk (.leaf Samples.strLeaf) {} }]
/-- See `Samples.cat`. -/
def Samples.dog : ClassDef where
  name := "Dog"
  fields := [{ name := "name", field := .mk (.leaf Samples.strLeaf) {} },
             { name := "chip", field := .mk (.leaf Samples.intLeaf) {} }]
/-- The class table for `Samples.zoo`. -/
def Samples.zooEnv : Env where
  cls k := if k = "Zoo" then some Samples.zoo else if k = "Cat" then some Samples.cat
    else if k = "Dog" then some Samples.dog else none
  isSub a b := a == b
  subs _ := []

/-- Validating a polymorphic field is not idempotent on instances: conversion accepts a `Dog`
as it is, but validation resolves the class again and silently turns the `Dog` into a `Cat`,
dropping its `chip`. -/
theorem C16_counterexample_poly_validation :
    runImport Samples.zooEnv 5 { oo := true } Samples.zoo (.inst [])
        [(.str "pet", .inst "Dog" [(.str "name", .str "Rex"), (.str "chip", .int 7)])]
      = .ok [(.str "pet", .inst "Dog" [(.str "name", .str "Rex"), (.str "chip", .int 7)])] ∧
    runValidate Samples.zooEnv 5 { conv := .val, validate := true, oo := true } Samples.zoo (.inst [])
        [(.str "pet", .inst "Dog" [(.str "name", .str "Rex"), (.str "chip", .int 7)])]
      = .ok [(.str "pet", .inst "Cat" [(.str "name", .str "Rex")])] := ⟨rfl, rfl⟩

/-! ## The hypotheses are met -/

theorem Samples.int_idem : Samples.intLeaf.Idempotent where
  native app v w _ h := by
    obtain ⟨i, rfl⟩ := Samples.intLeaf_ok h
    exact ⟨rfl, rfl⟩
  override g h := by cases h

theorem Samples.str_idem : Samples.strLeaf.Idempotent where
  native app v w _ h := by
    obtain ⟨i, rfl⟩ := Samples.strLeaf_ok h
    exact ⟨rfl, rfl⟩
  override g h := by cases h

theorem Samples.item_stable (b : Bool) : Samples.item.Stable Samples.env b where
  wf := Samples.item_wf
  simple := Samples.item_fields ⟨rfl, rfl⟩ ⟨rfl, rfl⟩
  pure := by intro nf h; cases h
  clash := by unfold ClassDef.NoAliasClash; decide
  nodes := Samples.item_fields Samples.int_idem Samples.str_idem

theorem Samples.order_stable (b : Bool) : Samples.order.Stable Samples.env b where
  wf := Samples.order_wf
  simple := Samples.order_fields ⟨rfl, rfl⟩ ⟨rfl, rfl⟩ ⟨rfl, rfl⟩ ⟨rfl, rfl⟩ ⟨rfl, rfl⟩
  pure := by intro nf h; cases h
  clash := by unfold ClassDef.NoAliasClash; decide
  nodes := Samples.order_fields Samples.int_idem ⟨trivial, trivial⟩
    ⟨fun k k' h => by cases h; rfl, Samples.int_idem⟩ Samples.str_idem trivial

theorem Samples.env_stable (b : Bool) : Samples.env.Stable b where
  named := by
    intro k c h
    rcases Samples.env_cls h with ⟨rfl, rfl⟩ | ⟨rfl, rfl⟩ <;> rfl
  refl k := by simp [Samples.env]
  classes := Samples.env_classes (Samples.item_stable b) (Samples.order_stable b)

example : runImport Samples.env 5 Samples.ictx Samples.order (.inst []) Samples.goodData = .ok Samples.goodData :=
  ((C16_conversion_idempotent _ _ _ _ (Samples.env_stable _) (Samples.order_stable _)
    ⟨rfl, Or.inl ⟨rfl, rfl⟩, rfl, Or.inl rfl, Or.inl rfl⟩ _ _).1 Samples.import_good).1

example : runValidate Samples.env 5 Samples.vctx Samples.order (.inst []) Samples.goodData = .ok Samples.goodData :=
  ((C16_conversion_idempotent _ _ _ _ (Samples.env_stable _) (Samples.order_stable _)
    ⟨rfl, Or.inr ⟨rfl, rfl⟩, rfl, Or.inl rfl, Or.inl rfl⟩ _ _).2 rfl Samples.validate_good).1

end Verif
