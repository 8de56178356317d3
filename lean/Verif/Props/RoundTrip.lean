import Verif.Props.Idempotent
import Verif.Core.ExportLemmas

/-!
# C32: importing the exported data gives the instance back
-/
namespace Verif

/-- A scalar type that round-trips: each value it produces is exported to a proper value
which it reads back as the same value. -/
def Leaf.RoundTrips (l : Leaf) (eapp iapp : Val) : Prop :=
  ∀ u v, u.isEmpty = false → l.toNative iapp u = .ok v →
    v.isEmpty = false ∧ ∃ p, l.toPrimitive eapp v = .ok p ∧ p.isEmpty = false ∧ l.toNative iapp p = .ok v

/-- What the round trip needs of a single type. -/
def PortableNode (eapp iapp : Val) : FType → Prop
  | .leaf l => l.RoundTrips eapp iapp
  | .dict _ co => ∀ k k', co k = .ok k' → co k' = .ok k'
  | _ => True

mutual
/-- `None` is exported for the field and for the elements of lists and dicts in it
(no `serialize_when_none=False` or export level up to `NOT_NONE`). -/
def Field.Shown (ectx : ECtx) (owner : Nat) : Field → Prop
  | .mk t o => NOT_NONE < exportLevelOf ectx owner (.mk t o) ∧ t.Shown ectx owner
/-- The same for the elements. -/
def FType.Shown (ectx : ECtx) (owner : Nat) : FType → Prop
  | .list inner _ _ => inner.Shown ectx owner
  | .dict inner _ => inner.Shown ectx owner
  | _ => True
end

/-- External names do not collide: they are distinct, and none is the name of another field. -/
def ClassDef.NamesDisjoint (c : ClassDef) : Prop :=
  DistinctExt c ∧ ∀ fd ∈ c.fields, ∀ fd' ∈ c.fields, fd'.extName = fd.name → fd'.name = fd.name

/-- What the round trip needs of a class: nothing computed, no role that hides fields, `None`
is exported, external names do not collide, scalars round-trip. -/
structure ClassDef.Portable (ectx : ECtx) (iapp : Val) (c : ClassDef) : Prop where
  wf : c.WF
  simple : c.Simple
  names : c.NamesDisjoint
  unfiltered : roleFilter ectx c = some none
  shown : ∀ fd ∈ c.fields, fd.field.Shown ectx c.exportLevel
  nodes : ∀ fd ∈ c.fields, fd.field.Nodes (PortableNode ectx.app iapp)

/-- `v` is a converted value of the field: scalars are results of a conversion, lists and dicts
have no `None` elements, nested models have a value for every field. A value of a polymorphic
field must be recognised in its exported form. -/
inductive Holds (env : Env) (ectx : ECtx) (ictx : Ctx) : Bool → Field → Val → Prop
  | none {f} : f.o.required = false ∨ ictx.partial_ = true → Holds env ectx ictx true f .none
  | leaf {b l o u v} : u.isEmpty = false → l.toNative ictx.app u = .ok v →
      Holds env ectx ictx b (.mk (.leaf l) o) v
  | list {b inner mn mx o xs} : (∀ x ∈ xs, Holds env ectx ictx false inner x) →
      Holds env ectx ictx b (.mk (.list inner mn mx) o) (.list xs)
  | dict {b inner co o kvs} : Dict.Nodup kvs → (∀ kv ∈ kvs, ∃ k, co k = .ok kv.1) →
      (∀ kv ∈ kvs, Holds env ectx ictx false inner kv.2) → Holds env ectx ictx b (.mk (.dict inner co) o) (.dict kvs)
  | model {b cls o} {c : ClassDef} {res : FieldDef → Val} : env.cls cls = some c → (∀ fd ∈ c.fields, Holds env ectx ictx true fd.field (res fd)) →
      Holds env ectx ictx b (.mk (.model cls) o) (.inst cls (tabulate c.fields fun fd => some (res fd)))
  | poly {b p o k} {c : ClassDef} {res : FieldDef → Val} : env.cls k = some c → (∀ fd ∈ c.fields, Holds env ectx ictx true fd.field (res fd)) →
      p.allowed env (.inst k []) = true →
      (∀ n e, exportModel (fieldExport env ectx n) ectx c (.inst (tabulate c.fields fun fd => some (res fd))) = .ok e →
        p.findModel env e = .ok k) →
      Holds env ectx ictx b (.mk (.poly p) o) (.inst k (tabulate c.fields fun fd => some (res fd)))

/-- The context of `Model(raw)`: plain conversion to instances, values initialised. -/
structure Ctx.Create (ctx : Ctx) : Prop where
  trusted : ctx.trusted = []
  mode : ctx.conv = .imp ∧ ctx.validate = false
  convert : ctx.convert = true
  oo : ctx.oo = true
  init : ctx.init = true
  mapping : ctx.mapping = .empty

/-! ## Lemmas -/

theorem Ctx.Create.sub {env : Env} {ctx : Ctx} (h : ctx.Create) (name : String) : subCtx env ctx name = ctx := by
  obtain ⟨h1, _, _, _, _, h2⟩ := h
  obtain ⟨cv, td, mp, _, _, _, _, _, _, _, _, _⟩ := ctx
  simp only at h1 h2
  subst h1 h2
  simp [subCtx, Mapping.empty, Mapping.sub]

theorem hidden_shown {l : Nat} (h : NOT_NONE < l) {f : Field} {v : Val} (hv : v.isUndef = false) : hidden l f v = false := by
  unfold NOT_NONE at h
  unfold hidden NOT_NONE NONEMPTY
  rw [hv]
  simp only [Bool.false_eq_true, if_false]
  split
  · simpa using h
  · split
    · simp; omega
    · rfl

theorem hiddenItem_shown {l : Nat} (h : NOT_NONE < l) {f : Field} {v : Val} : hiddenItem l f v = false := by
  unfold NOT_NONE at h
  unfold hiddenItem NOT_NONE NONEMPTY
  split
  · simpa using h
  · have : ¬ l ≤ 1 := by omega
    simp [this]

theorem exportItems_all {f : Val → R Val} {hide : Val → Bool} (hh : ∀ v, hide v = false) {xs ys : List Val}
    (h : All2 (fun x y => f x = .ok y) xs ys) : exportItems f hide xs = .ok ys := by
  induction h with
  | nil => rfl
  | cons h1 _ ih => simp [exportItems, h1, ih, hh]

theorem exportPairs_all {f : Val → R Val} {hide : Val → Bool} (hh : ∀ v, hide v = false) (kvs : List (Key × Val))
    (g : Key × Val → Val) (h : ∀ kv ∈ kvs, f kv.2 = .ok (g kv)) :
    exportPairs f hide kvs = .ok (kvs.map fun kv => (kv.1, g kv)) := by
  induction kvs with
  | nil => rfl
  | cons kv kvs ih =>
    obtain ⟨k, x⟩ := kv
    have h1 := h (k, x) (by simp)
    simp only [] at h1
    simp [exportPairs, h1, ih fun kv hm => h kv (by simp [hm]), hh]

theorem dictLoop_map {f : Val → R Val} {co : Key → R Key} (g : Key × Val → Val) (kvs : List (Key × Val)) (d : Data)
    (hf : ∀ kv ∈ kvs, f (g kv) = .ok kv.2 ∧ co kv.1 = .ok kv.1) (hnd : Dict.Nodup (d ++ kvs)) :
    dictLoop f co (kvs.map fun kv => (kv.1, g kv)) d [] = .ok (d ++ kvs, []) := by
  induction kvs generalizing d with
  | nil => simp [dictLoop]
  | cons kv kvs ih =>
    obtain ⟨k, x⟩ := kv
    have h := hf (k, x) (by simp)
    simp only [] at h
    have hset : d.set k x = d ++ [(k, x)] := by
      apply set_fresh
      unfold Dict.Nodup Dict.keys at hnd
      rw [List.map_append, List.nodup_append] at hnd
      intro hm
      exact hnd.2.2 k hm k (by simp) rfl
    rw [List.map_cons, dictLoop, h.1]
    simp only [h.2]
    rw [hset, ih _ (fun kv hm => hf kv (by simp [hm])) (by simpa using hnd)]
    simp

/-- A finite choice of bounds. -/
theorem bound_of_list {α : Type} (P : Nat → α → Prop) (l : List α) (h : ∀ x ∈ l, ∃ N, ∀ n, N ≤ n → P n x) :
    ∃ N, ∀ n, N ≤ n → ∀ x ∈ l, P n x := by
  induction l with
  | nil => exact ⟨0, by simp⟩
  | cons x l ih =>
    obtain ⟨N, hN⟩ := ih fun y hy => h y (by simp [hy])
    obtain ⟨M, hM⟩ := h x (by simp)
    refine ⟨max N M, fun n hn y hy => ?_⟩
    rcases List.mem_cons.1 hy with rfl | hy
    · exact hM n (by omega)
    · exact hN n (by omega) y hy

theorem choose_out {fds : List FieldDef} {P : FieldDef → Val → Prop} (h : ∀ fd ∈ fds, ∃ p, P fd p) :
    ∃ out : FieldDef → Val, ∀ fd ∈ fds, P fd (out fd) := by
  classical
  refine ⟨fun fd => if h' : fd ∈ fds then (h fd h').choose else .none, fun fd hfd => ?_⟩
  simp only [hfd, dif_pos]
  exact (h fd hfd).choose_spec

/-- Exporting and re-importing one class, given that its fields do. -/
theorem class_roundTrip {env : Env} {ectx : ECtx} {ictx : Ctx} (hi : ictx.Create) {c : ClassDef}
    (hc : c.Portable ectx ictx.app) {erec : ERec} {rec : Rec} {res : FieldDef → Val}
    (hnone : ∀ fd ∈ c.fields, res fd = .none → rec ictx true fd.field .none = .ok .none)
    (hdef : ∀ fd ∈ c.fields, (res fd).isUndef = false)
    (hf : ∀ fd ∈ c.fields, (res fd).isEmpty = false → ∃ p, erec c.exportLevel fd.field (res fd) = .ok p ∧
      p.isEmpty = false ∧ rec ictx true fd.field p = .ok (res fd)) :
    ∃ e, exportLoop erec ectx c (.inst (tabulate c.fields fun fd => some (res fd))) = .ok e ∧
      importBody rec env ictx c e [] = .ok (tabulate c.fields fun fd => some (res fd)) := by
  -- the exported value of each field
  have hout : ∀ fd ∈ c.fields, ∃ p, p.isUndef = false ∧ rec ictx true fd.field p = .ok (res fd) ∧
      exportField erec ectx c.exportLevel none (.inst (tabulate c.fields fun fd => some (res fd))) fd = .ok (some p) := by
    intro fd hfd
    have hread : (Src.inst (tabulate c.fields fun fd => some (res fd))).read fd = res fd := by
      simp [Src.read, (hc.simple fd hfd).1, rawValue, tabulate_get hc.wf _ hfd]
    have hsh : NOT_NONE < exportLevelOf ectx c.exportLevel fd.field := by
      have := hc.shown fd hfd
      cases hfld : fd.field with
      | mk t o => rw [hfld] at this; exact this.1
    have hdrop : exportLevelOf ectx c.exportLevel fd.field ≠ DROP := by
      unfold NOT_NONE at hsh; unfold DROP; omega
    cases hemp : (res fd).isEmpty with
    | true =>
      have hn : res fd = .none := by
        rcases (Val.isEmpty_iff _).1 hemp with h | h
        · exact h
        · have := hdef fd hfd; rw [h] at this; cases this
      refine ⟨.none, rfl, ?_, ?_⟩
      · rw [hn]; exact hnone fd hfd hn
      · simp only [exportField, skipped, hread, hdrop, if_false, hn, Val.isEmpty, if_true, Bool.false_eq_true]
        rw [hidden_shown hsh rfl]
        rfl
    | false =>
      obtain ⟨p, h1, h2, h3⟩ := hf fd hfd hemp
      have hpu : p.isUndef = false := by cases p <;> simp_all [Val.isUndef, Val.isEmpty]
      refine ⟨p, hpu, h3, ?_⟩
      simp only [exportField, skipped, hread, hdrop, if_false, hemp, Bool.false_eq_true, h1]
      rw [hidden_shown hsh hpu]
      simp [nullify, hpu]
  obtain ⟨out, hout⟩ := choose_out hout
  have hexp := exportLoop_of (rec := erec) (ctx := ectx) (c := c)
    (src := .inst (tabulate c.fields fun fd => some (res fd))) (f := fun fd => some (out fd)) hc.unfiltered
    (fun fd hfd => (hout fd hfd).2.2)
  have hnd := flatMap_entry_nodup (fun fd => some (out fd)) c.fields hc.names.1
  rw [update_fresh _ _ (by simpa using hnd), List.nil_append] at hexp
  refine ⟨_, hexp, ?_⟩
  -- lookups in the exported dict
  have hkeys : ∀ k, k ∈ Dict.keys (c.fields.flatMap fun fd => entryOf fd (some (out fd))) ↔
      ∃ fd ∈ c.fields, k = .str fd.extName := by
    intro k
    generalize c.fields = fds
    induction fds with
    | nil => simp
    | cons x fds ih =>
      simp only [List.flatMap_cons, entryOf, List.cons_append, List.nil_append, Dict.keys_cons, List.mem_cons]
      simp only [entryOf] at ih
      rw [ih]
      simp
  have hget : ∀ fd ∈ c.fields, Dict.get? (c.fields.flatMap fun fd => entryOf fd (some (out fd))) (.str fd.extName) =
      some (out fd) := by
    intro fd hfd
    apply Dict.get?_of_mem hnd
    exact List.mem_flatMap.2 ⟨fd, hfd, by simp [entryOf]⟩
  generalize (c.fields.flatMap fun fd => entryOf fd (some (out fd))) = e at hkeys hget
  rw [importBody_simple hi.trusted hc.wf hc.simple]
  refine ⟨?_, fun fd => some (res fd), ?_, rfl⟩
  · unfold rogueKeys
    split
    · rw [List.filter_eq_nil_iff]
      intro k hk
      obtain ⟨fd, hfd, rfl⟩ := (hkeys k).1 hk
      have hext : fd.extName ∈ inputKeys .empty fd := by
        unfold FieldDef.extName inputKeys
        cases fd.field.o.serializedName with
        | none => simp
        | some s =>
          by_cases hs : s = ""
          · simp [hs]
          · simp [hs]
      have hm : Key.str fd.extName ∈ (acceptedKeys ictx.mapping c).map Key.str :=
        List.mem_map.2 ⟨fd.extName, by
          unfold acceptedKeys
          exact List.mem_append_left _ (List.mem_flatMap.2 ⟨fd, hfd, hext⟩), rfl⟩
      simpa using hm
    · rfl
  · intro fd hfd
    obtain ⟨hu, hrec, _⟩ := hout fd hfd
    have hin : inputValue e ictx.mapping fd = out fd := by
      rw [hi.mapping]
      by_cases hn : fd.extName = fd.name
      · have : rawValue e fd.name = out fd := by
          unfold rawValue
          rw [← hn, hget fd hfd]
          rfl
        simp [inputValue, this, hu]
      · have hraw : rawValue e fd.name = .undef := by
          unfold rawValue
          rw [(Dict.get?_eq_none _ _).2]
          · rfl
          · intro hk
            obtain ⟨fd', hfd', heq⟩ := (hkeys _).1 hk
            injection heq with heq
            have h1 := hc.names.2 fd hfd fd' hfd' heq.symm
            have := name_inj hc.wf hfd' hfd h1
            subst this
            exact hn heq.symm
        simp only [inputValue, hraw, Val.isUndef, if_true]
        have hg := hget fd hfd
        unfold FieldDef.extName at hn hg
        unfold inputKeys
        cases hs : fd.field.o.serializedName with
        | none => rw [hs] at hn; exact absurd rfl hn
        | some s =>
          rw [hs] at hn hg
          simp only [] at hn hg
          by_cases hs0 : s = ""
          · rw [if_pos hs0] at hn; exact absurd rfl hn
          · rw [if_neg hs0] at hn hg
            simp [hs0, aliasValue, hn, hg]
    have hfill : fillValue ictx fd (out fd) = out fd := by simp [fillValue, hu]
    refine ⟨res fd, ?_, ?_⟩
    · rw [hin, hfill, hi.sub]
      simp only [ite_self]
      exact hrec
    · simp [hdef fd hfd]

theorem Holds.defined {env : Env} {ectx : ECtx} {ictx : Ctx} {b : Bool} {f : Field} {v : Val} {eapp : Val}
    (h : Holds env ectx ictx b f v) (hn : f.Nodes (PortableNode eapp ictx.app)) : v.isUndef = false := by
  cases h with
  | leaf hu hv =>
    unfold Field.Nodes FType.Nodes PortableNode at hn
    have := (hn _ _ hu hv).1
    cases v <;> simp_all [Val.isUndef, Val.isEmpty]
  | _ => rfl

theorem fieldConv_imp {env : Env} {n : Nat} {ctx : Ctx} (hc : ctx.conv = .imp) {b : Bool} {f : Field} {p : Val}
    (hp : p.isEmpty = false) : fieldConv env (n + 1) ctx b f p = convertF (fieldConv env n) env ctx f p := by
  simp only [fieldConv, fieldConvF]
  have : requiredFails ctx b f p = false := by simp [requiredFails, hp]
  rw [this, hp, hc]
  rfl

theorem fieldConv_none {env : Env} {ictx : Ctx} {f : Field} (h : f.o.required = false ∨ ictx.partial_ = true) {n : Nat}
    (hn : 1 ≤ n) : fieldConv env n ictx true f .none = .ok .none := by
  obtain ⟨m, rfl⟩ : ∃ m, n = m + 1 := ⟨n - 1, by omega⟩
  simp only [fieldConv, fieldConvF]
  have : requiredFails ictx true f .none = false := by
    unfold requiredFails
    rcases h with h | h <;> simp [h]
  rw [this]
  rfl

/-- Exporting and re-importing one value, for all sufficient stack depths. -/
theorem holds_roundTrip {env : Env} {ectx : ECtx} {ictx : Ctx} (hfmt : ectx.fmt = .primitive) (hi : ictx.Create)
    (hcls : ∀ k c, env.cls k = some c → c.name = k ∧ c.Portable ectx ictx.app)
    {b : Bool} {f : Field} {v : Val} (h : Holds env ectx ictx b f v) :
    ∀ owner, f.Shown ectx owner → f.Nodes (PortableNode ectx.app ictx.app) →
      ∃ N, ∀ n, N ≤ n →
        (v = .none → fieldConv env n ictx b f .none = .ok .none) ∧
        (v.isEmpty = false → ∃ p, fieldExport env ectx n owner f v = .ok p ∧ p.isEmpty = false ∧
          fieldConv env n ictx b f p = .ok v) := by
  have hmode := hi.mode.1
  induction h with
  | none hreq => exact fun _ _ _ => ⟨1, fun n hn => ⟨fun _ => fieldConv_none hreq hn, fun h => by cases h⟩⟩
  | @leaf b l o u v hu hv =>
    intro owner _ hn
    unfold Field.Nodes FType.Nodes PortableNode at hn
    obtain ⟨h0, p, h1, h2, h3⟩ := hn _ _ hu hv
    refine ⟨1, fun n hn => ⟨fun h => (by rw [h] at h0; cases h0), fun _ => ⟨p, ?_, h2, ?_⟩⟩⟩
    · obtain ⟨m, rfl⟩ : ∃ m, n = m + 1 := ⟨n - 1, by omega⟩
      simp only [fieldExport, exportF, Field.ty_mk, hfmt]
      exact h1
    · obtain ⟨m, rfl⟩ : ∃ m, n = m + 1 := ⟨n - 1, by omega⟩
      rw [fieldConv_imp hmode h2]
      exact h3
  | @list b inner mn mx o xs hxs ih =>
    intro owner hs hn
    unfold Field.Shown FType.Shown at hs
    unfold Field.Nodes FType.Nodes at hn
    have hlev : NOT_NONE < exportLevelOf ectx owner inner := by
      cases inner with
      | mk t o => exact (by have := hs.2; unfold Field.Shown at this; exact this.1)
    obtain ⟨N, hN⟩ := bound_of_list _ xs fun x hx => ih x hx owner hs.2 hn.2
    refine ⟨N + 1, fun n hn' => ⟨(by intro h; cases h), fun _ => ?_⟩⟩
    obtain ⟨m, rfl⟩ : ∃ m, n = m + 1 := ⟨n - 1, by omega⟩
    have hm := hN m (by omega)
    have hout : ∃ ys, All2 (fun x y => fieldExport env ectx m owner inner x = .ok y) xs ys ∧
        All2 (fun y x => fieldConv env m ictx false inner y = .ok x) ys xs := by
      clear ih hN
      induction xs with
      | nil => exact ⟨[], .nil, .nil⟩
      | cons x xs ihx =>
        obtain ⟨ys, h1, h2⟩ := ihx (fun x hx => hxs x (by simp [hx])) rfl (fun x hx => hm x (by simp [hx]))
        have hx := hxs x (by simp)
        have hxe : x.isEmpty = false := by
          cases hx with
          | leaf hu hv =>
            have h2 := hn.2
            unfold Field.Nodes FType.Nodes PortableNode at h2
            exact (h2 _ _ hu hv).1
          | _ => rfl
        obtain ⟨y, hy1, _, hy2⟩ := (hm x (by simp)).2 hxe
        exact ⟨y :: ys, .cons hy1 h1, .cons hy2 h2⟩
    obtain ⟨ys, h1, h2⟩ := hout
    refine ⟨.list ys, ?_, rfl, ?_⟩
    · have hd : exportLevelOf ectx owner inner ≠ DROP := by unfold NOT_NONE at hlev; unfold DROP; omega
      simp only [fieldExport, exportF, Field.ty_mk, hd, if_false, iterItems]
      rw [exportItems_all (fun v => hiddenItem_shown hlev) h1]
    · rw [fieldConv_imp hmode rfl]
      simp only [convertF, Field.ty_mk, coerceList]
      exact listConv_of h2
  | @dict b inner co o kvs hnd hco hkvs ih =>
    intro owner hs hn
    unfold Field.Shown FType.Shown at hs
    unfold Field.Nodes FType.Nodes at hn
    have hlev : NOT_NONE < exportLevelOf ectx owner inner := by
      cases inner with
      | mk t o => exact (by have := hs.2; unfold Field.Shown at this; exact this.1)
    obtain ⟨N, hN⟩ := bound_of_list _ kvs fun x hx => ih x hx owner hs.2 hn.2
    refine ⟨N + 1, fun n hn' => ⟨(by intro h; cases h), fun _ => ?_⟩⟩
    obtain ⟨m, rfl⟩ : ∃ m, n = m + 1 := ⟨n - 1, by omega⟩
    have hm := hN m (by omega)
    have hout : ∀ kv ∈ kvs, ∃ p, fieldExport env ectx m owner inner kv.2 = .ok p ∧
        fieldConv env m ictx false inner p = .ok kv.2 := by
      intro kv hkv
      have hx := hkvs kv hkv
      have hxe : kv.2.isEmpty = false := by
        generalize kv.2 = x at hx
        cases hx with
        | leaf hu hv =>
          have h2 := hn.2
          unfold Field.Nodes FType.Nodes PortableNode at h2
          exact (h2 _ _ hu hv).1
        | _ => rfl
      obtain ⟨p, h1, _, h2⟩ := (hm kv hkv).2 hxe
      exact ⟨p, h1, h2⟩
    have hout : ∃ g : Key × Val → Val, ∀ kv ∈ kvs, fieldExport env ectx m owner inner kv.2 = .ok (g kv) ∧
        fieldConv env m ictx false inner (g kv) = .ok kv.2 := by
      classical
      refine ⟨fun kv => if h' : kv ∈ kvs then (hout kv h').choose else .none, fun kv hkv => ?_⟩
      simp only [hkv, dif_pos]
      exact (hout kv hkv).choose_spec
    obtain ⟨g, hg⟩ := hout
    refine ⟨.dict (kvs.map fun kv => (kv.1, g kv)), ?_, rfl, ?_⟩
    · have hd : exportLevelOf ectx owner inner ≠ DROP := by unfold NOT_NONE at hlev; unfold DROP; omega
      simp only [fieldExport, exportF, Field.ty_mk, hd, if_false, iterPairs]
      rw [exportPairs_all (fun v => hiddenItem_shown hlev) kvs g fun kv hkv => (hg kv hkv).1]
    · rw [fieldConv_imp hmode rfl]
      simp only [convertF, Field.ty_mk]
      unfold dictConv
      have hco' : ∀ kv ∈ kvs, co kv.1 = .ok kv.1 := by
        intro kv hkv
        obtain ⟨k, hk⟩ := hco kv hkv
        have := hn.1
        unfold PortableNode at this
        exact this _ _ hk
      rw [dictLoop_map g kvs [] (fun kv hkv => ⟨(hg kv hkv).2, hco' kv hkv⟩) (by simpa using hnd)]
      simp
  | @model b cls o c res hc hf ih =>
    intro owner _ _
    obtain ⟨hname, hp⟩ := hcls _ _ hc
    obtain ⟨N, hN⟩ := bound_of_list _ c.fields fun fd hfd => ih fd hfd c.exportLevel (hp.shown fd hfd) (hp.nodes fd hfd)
    refine ⟨N + 1, fun n hn' => ⟨(by intro h; cases h), fun _ => ?_⟩⟩
    obtain ⟨m, rfl⟩ : ∃ m, n = m + 1 := ⟨n - 1, by omega⟩
    have hm := hN m (by omega)
    obtain ⟨e, h1, h2⟩ := class_roundTrip (env := env) hi hp (erec := fieldExport env ectx m) (rec := fieldConv env m) (res := res)
      (fun fd hfd hr => (hm fd hfd).1 hr) (fun fd hfd => (hf fd hfd).defined (hp.nodes fd hfd))
      (fun fd hfd he => (hm fd hfd).2 he)
    refine ⟨.dict e, ?_, rfl, ?_⟩
    · simp only [fieldExport, exportF, Field.ty_mk, hc, exportModel, h1]
    · rw [fieldConv_imp hmode rfl]
      simp only [convertF, Field.ty_mk, modelConv, hc, modelInto, hi.convert, hi.oo, Bool.and_self, if_true, newInstance,
        hi.mode.2, Bool.false_eq_true, if_false, importLoop, h2, hname]
  | @poly b p o k c res hc hf hal hfind ih =>
    intro owner _ _
    obtain ⟨hname, hp⟩ := hcls _ _ hc
    obtain ⟨N, hN⟩ := bound_of_list _ c.fields fun fd hfd => ih fd hfd c.exportLevel (hp.shown fd hfd) (hp.nodes fd hfd)
    refine ⟨N + 1, fun n hn' => ⟨(by intro h; cases h), fun _ => ?_⟩⟩
    obtain ⟨m, rfl⟩ : ∃ m, n = m + 1 := ⟨n - 1, by omega⟩
    have hm := hN m (by omega)
    obtain ⟨e, h1, h2⟩ := class_roundTrip (env := env) hi hp (erec := fieldExport env ectx m) (rec := fieldConv env m) (res := res)
      (fun fd hfd hr => (hm fd hfd).1 hr) (fun fd hfd => (hf fd hfd).defined (hp.nodes fd hfd))
      (fun fd hfd he => (hm fd hfd).2 he)
    have hal' : p.allowed env (.inst k (tabulate c.fields fun fd => some (res fd))) = true := hal
    refine ⟨.dict e, ?_, rfl, ?_⟩
    · simp only [fieldExport, exportF, Field.ty_mk, hal', if_true, hc, exportModel, h1]
    · rw [fieldConv_imp hmode rfl]
      have hk : p.findModel env (.dict e) = .ok k := hfind m _ (by simp only [exportModel, h1])
      have hna : p.allowed env (.dict e) = false := rfl
      simp only [convertF, Field.ty_mk, polyConv, hna, Bool.and_false, Bool.false_eq_true, if_false, Val.isDict, Bool.not_true,
        hk, hc, newInstance, hi.mode.2, importLoop, h2, hname]

/-! ## The property -/

/-- C32.  For every instance `m` of `c` (with a value `res fd` for every field `fd`) whose content is converted
data, `m.to_primitive()` succeeds and `M(m.to_primitive())` is an instance with the same content - for every
stack depth that is large enough. -/
theorem C32_export_import_round_trip (env : Env) (ectx : ECtx) (ictx : Ctx) (hfmt : ectx.fmt = .primitive) (hi : ictx.Create)
    (hcls : ∀ k c, env.cls k = some c → c.name = k ∧ c.Portable ectx ictx.app)
    (c : ClassDef) (hc : c.Portable ectx ictx.app) (d : Data) (res : FieldDef → Val)
    (hd : d = c.fields.map fun fd => (.str fd.name, res fd))
    (hheld : ∀ fd ∈ c.fields, Holds env ectx ictx true fd.field (res fd)) :
    ∃ N, ∀ n, N ≤ n → ∃ e, runExport env n ectx c (.inst d) = .ok e ∧ runImport env n ictx c (.inst []) e = .ok d := by
  have hd : d = tabulate c.fields fun fd => some (res fd) := by
    rw [hd]; simp [tabulate]
  subst hd
  obtain ⟨N, hN⟩ := bound_of_list _ c.fields fun fd hfd =>
    holds_roundTrip hfmt hi hcls (hheld fd hfd) c.exportLevel (hc.shown fd hfd) (hc.nodes fd hfd)
  refine ⟨N, fun m hm => ?_⟩
  have hm := hN m hm
  obtain ⟨e, h1, h2⟩ := class_roundTrip (env := env) hi hc (erec := fieldExport env ectx m) (rec := fieldConv env m) (res := res)
    (fun fd hfd hr => (hm fd hfd).1 hr) (fun fd hfd => (hheld fd hfd).defined (hc.nodes fd hfd))
    (fun fd hfd he => (hm fd hfd).2 he)
  refine ⟨e, h1, ?_⟩
  simp only [runImport, importLoop, hi.mode.2, Bool.false_eq_true, if_false]
  exact h2

/-- Elements of lists and dicts are required (so that `None` elements are refused), and there are no
polymorphic fields. -/
def FirmNode : FType → Prop
  | .list inner _ _ => inner.o.required = true
  | .dict inner _ => inner.o.required = true
  | .poly _ => False
  | _ => True

theorem conv_holds {env : Env} {ectx : ECtx} {ictx : Ctx} (hi : ictx.Create)
    (hcls : ∀ k c, env.cls k = some c → c.name = k ∧ c.Portable ectx ictx.app ∧ ∀ fd ∈ c.fields, fd.field.Nodes FirmNode)
    (hsub : ∀ a b, env.isSub a b = true → a = b) (n : Nat) :
    ∀ b f v w, (b = false → f.o.required = true) → v.isUndef = false → f.Nodes FirmNode → f.Nodes (PortableNode ectx.app ictx.app) →
      fieldConv env n ictx b f v = .ok w → Holds env ectx ictx b f w := by
  induction n with
  | zero => intro b f v w _ _ _ _ h; cases h
  | succ n ih =>
    intro b f v w hb hv hf hp h
    cases hve : v.isEmpty with
    | true =>
      have hvn : v = .none := by
        rcases (Val.isEmpty_iff _).1 hve with h | h
        · exact h
        · rw [h] at hv; cases hv
      subst hvn
      simp only [fieldConv] at h
      have hw := fieldConvF_empty rfl h
      subst hw
      unfold fieldConvF at h
      split at h
      · cases h
      · rename_i hreq
        cases b with
        | false => simp [requiredFails, hb rfl, Val.isEmpty] at hreq
        | true =>
          apply Holds.none
          cases hr : f.o.required with
          | false => exact Or.inl rfl
          | true =>
            right
            simpa [requiredFails, hr, Val.isEmpty] using hreq
    | false =>
      rw [fieldConv_imp hi.mode.1 hve] at h
      have hnew : ∀ (k : String) (c : ClassDef) (raw : Data), env.cls k = some c →
          ∀ w, newInstance (fieldConv env n) env ictx c raw = .ok w →
          ∃ res : FieldDef → Val, w = .inst k (tabulate c.fields fun fd => some (res fd)) ∧
            ∀ fd ∈ c.fields, Holds env ectx ictx true fd.field (res fd) := by
        intro k c raw hc w h
        obtain ⟨hname, hport, hfirm⟩ := hcls k c hc
        simp only [newInstance, hi.mode.2, Bool.false_eq_true, if_false, importLoop] at h
        split at h
        · cases h
        · rename_i d hd
          injection h with h
          obtain ⟨_, r, hr, rfl⟩ := (importBody_simple hi.trusted hport.wf hport.simple).1 hd
          have hres : ∀ fd ∈ c.fields, ∃ w, Holds env ectx ictx true fd.field w ∧ r fd = some w := by
            intro fd hfd
            obtain ⟨w, hw, hrw⟩ := hr fd hfd
            rw [hi.sub] at hw
            simp only [ite_self] at hw
            have hH := ih true fd.field _ w (by simp) (fillValue_defined ictx fd _ hi.init) (hfirm fd hfd) (hport.nodes fd hfd) hw
            refine ⟨w, hH, ?_⟩
            rw [hrw, hH.defined (hport.nodes fd hfd)]
            rfl
          obtain ⟨res, hres⟩ := choose_out hres
          refine ⟨res, ?_, fun fd hfd => (hres fd hfd).1⟩
          rw [← h, hname, tabulate_congr fun fd hfd => (hres fd hfd).2]
      obtain ⟨t, o⟩ := f
      unfold Field.Nodes at hf hp
      cases t with
      | leaf l => exact Holds.leaf hve h
      | list inner mn mx =>
        unfold FType.Nodes at hf hp
        simp only [convertF, Field.ty_mk] at h
        split at h
        · cases h
        · obtain ⟨ys, rfl, hall⟩ := listConv_ok h
          refine Holds.list fun y hy => ?_
          obtain ⟨x, _, hx⟩ := all2_mem hall y hy
          have hxu : x.isUndef = false := by
            cases hxu : x.isUndef with
            | false => rfl
            | true =>
              exfalso
              rw [(Val.isUndef_iff x).1 hxu] at hx
              cases n with
              | zero => cases hx
              | succ n =>
                have : requiredFails ictx false inner .undef = true := by
                  have h1 := hf.1
                  unfold FirmNode at h1
                  simp [requiredFails, h1, Val.isEmpty]
                simp only [fieldConv, fieldConvF, this, if_true] at hx
                cases hx
          exact ih false inner x y (fun _ => hf.1) hxu hf.2 hp.2 hx
      | dict inner co =>
        unfold FType.Nodes at hf hp
        simp only [convertF, Field.ty_mk] at h
        split at h
        · obtain ⟨d, rfl, hnd, hall⟩ := dictConv_origin h
          refine Holds.dict hnd (fun kv hkv => ?_) (fun kv hkv => ?_)
          · obtain ⟨k, x, _, h2⟩ := hall kv hkv
            exact ⟨k, h2⟩
          · obtain ⟨k, x, hx, _⟩ := hall kv hkv
            have hxu : x.isUndef = false := by
              cases hxu : x.isUndef with
              | false => rfl
              | true =>
                exfalso
                rw [(Val.isUndef_iff x).1 hxu] at hx
                cases n with
                | zero => cases hx
                | succ n =>
                  have : requiredFails ictx false inner .undef = true := by
                    have h1 := hf.1
                    unfold FirmNode at h1
                    simp [requiredFails, h1, Val.isEmpty]
                  simp only [fieldConv, fieldConvF, this, if_true] at hx
                  cases hx
            exact ih false inner x kv.2 (fun _ => hf.1) hxu hf.2 hp.2 hx
        · cases h
      | model cls =>
        simp only [convertF, Field.ty_mk, modelConv, modelInto, hi.convert, hi.oo, Bool.and_self, if_true] at h
        split at h
        · split at h
          · rename_i hs
            have := hsub _ _ hs
            subst this
            split at h
            · rename_i c hc
              obtain ⟨res, rfl, hres⟩ := hnew _ c _ hc w h
              exact Holds.model hc hres
            · cases h
          · cases h
        · split at h
          · rename_i c hc
            obtain ⟨res, rfl, hres⟩ := hnew _ c _ hc w h
            exact Holds.model hc hres
          · cases h
        · cases h
      | poly p => exact absurd hf id

/-- C32 for instances obtained by import: whatever the input was, if `M(raw)` succeeds and list and dict elements are
required, then `to_primitive()` succeeds on the result and `M(M(raw).to_primitive())` has the content of `M(raw)`. -/
theorem C32_imported_round_trip (env : Env) (ectx : ECtx) (ictx : Ctx) (hfmt : ectx.fmt = .primitive) (hi : ictx.Create)
    (hcls : ∀ k c, env.cls k = some c → c.name = k ∧ c.Portable ectx ictx.app ∧ ∀ fd ∈ c.fields, fd.field.Nodes FirmNode)
    (hsub : ∀ a b, env.isSub a b = true → a = b)
    (c : ClassDef) (hc : c.Portable ectx ictx.app ∧ ∀ fd ∈ c.fields, fd.field.Nodes FirmNode) (m : Nat) (raw d : Data)
    (h : runImport env m ictx c (.inst []) raw = .ok d) :
    ∃ N, ∀ n, N ≤ n → ∃ e, runExport env n ectx c (.inst d) = .ok e ∧ runImport env n ictx c (.inst []) e = .ok d := by
  obtain ⟨hport, hfirm⟩ := hc
  simp only [runImport, importLoop, hi.mode.2, Bool.false_eq_true, if_false] at h
  obtain ⟨_, r, hr, rfl⟩ := (importBody_simple hi.trusted hport.wf hport.simple).1 h
  have hres : ∀ fd ∈ c.fields, ∃ w, Holds env ectx ictx true fd.field w ∧ r fd = some w := by
    intro fd hfd
    obtain ⟨w, hw, hrw⟩ := hr fd hfd
    rw [hi.sub] at hw
    simp only [ite_self] at hw
    have hH := conv_holds hi hcls hsub m true fd.field _ w (by simp) (fillValue_defined ictx fd _ hi.init)
      (hfirm fd hfd) (hport.nodes fd hfd) hw
    refine ⟨w, hH, ?_⟩
    rw [hrw, hH.defined (hport.nodes fd hfd)]
    rfl
  obtain ⟨res, hres⟩ := choose_out hres
  refine C32_export_import_round_trip env ectx ictx hfmt hi (fun k c hc => ⟨(hcls k c hc).1, (hcls k c hc).2.1⟩)
    c hport _ res ?_ (fun fd hfd => (hres fd hfd).1)
  rw [tabulate_congr fun fd hfd => (hres fd hfd).2]
  simp [tabulate]

/-! ## Where the round trip fails -/

/-- `class S(Model): a = IntType(serialized_name='b'); b = IntType(serialized_name='a')` -/
def Samples.swapped : ClassDef where
  name := "S"
  fields := [{ name := "a", field := .mk (.leaf Samples.intLeaf) { serializedName := some "b" } },
             { name := "b", field := .mk (.leaf Samples.intLeaf) { serializedName := some "a" } }]

/-- The name condition is needed: with swapped serialized names the round trip swaps the values. -/
theorem C32_counterexample_swapped_names :
    runExport Samples.env 3 {} Samples.swapped (.inst [(.str "a", .int 1), (.str "b", .int 2)])
      = .ok [(.str "b", .int 1), (.str "a", .int 2)] ∧
    runImport Samples.env 3 Samples.ictx Samples.swapped (.inst []) [(.str "b", .int 1), (.str "a", .int 2)]
      = .ok [(.str "a", .int 2), (.str "b", .int 1)] := ⟨rfl, rfl⟩

/-- The condition on `None` elements is needed: a `None` item of a list of models is exported as `{}` and comes
back as an empty model. -/
theorem C32_counterexample_none_item :
    runExport Samples.env 5 {} Samples.order (.inst [(.str "items", .list [.none])])
      = .ok [(.str "items", .list [.dict []])] ∧
    runImport Samples.env 5 { Samples.ictx with partial_ := true } Samples.order (.inst []) [(.str "items", .list [.dict []])]
      = .ok [(.str "id", .none),
          (.str "items", .list [.inst "Item" [(.str "qty", .none), (.str "tag", .none)]]),
          (.str "prices", .none), (.str "note", .str "-"), (.str "parent", .none)] := ⟨rfl, rfl⟩

/-! ## The hypotheses are met -/

namespace Samples

/-- `item` and a class with a list of required items and a dict, without roles. -/
def basket : ClassDef where
  name := "Basket"
  fields := [
    { name := "items", field := .mk (.list (.mk (.model "Item") { required := true }) none none) { serializedName := some "contents" } },
    { name := "prices", field := .mk (.dict (.mk (.leaf intLeaf) { required := true }) (fun k => .ok k)) {} },
    { name := "next", field := .mk (.model "Basket") {} }]

/-- Their class table. -/
def basketEnv : Env where
  cls k := if k = "Item" then some item else if k = "Basket" then some basket else none
  isSub a b := a == b
  subs _ := []

theorem int_roundTrips : intLeaf.RoundTrips (.dict []) (.dict []) := by
  intro u v _ h
  obtain ⟨i, rfl⟩ := intLeaf_ok h
  exact ⟨rfl, _, rfl, rfl, rfl⟩

theorem str_roundTrips : strLeaf.RoundTrips (.dict []) (.dict []) := by
  intro u v _ h
  obtain ⟨i, rfl⟩ := strLeaf_ok h
  exact ⟨rfl, _, rfl, rfl, rfl⟩

theorem item_portable : item.Portable {} (.dict []) ∧ ∀ fd ∈ item.fields, fd.field.Nodes FirmNode :=
  ⟨{ wf := item_wf
     simple := item_fields ⟨rfl, rfl⟩ ⟨rfl, rfl⟩
     names := by unfold ClassDef.NamesDisjoint DistinctExt; decide
     unfiltered := rfl
     shown := item_fields ⟨by decide, trivial⟩ ⟨by decide, trivial⟩
     nodes := item_fields int_roundTrips str_roundTrips }, item_fields trivial trivial⟩

theorem basket_fields {P : FieldDef → Prop}
    (h1 : P { name := "items", field := .mk (.list (.mk (.model "Item") { required := true }) none none) { serializedName := some "contents" } })
    (h2 : P { name := "prices", field := .mk (.dict (.mk (.leaf intLeaf) { required := true }) (fun k => .ok k)) {} })
    (h3 : P { name := "next", field := .mk (.model "Basket") {} }) : ∀ fd ∈ basket.fields, P fd := by
  intro fd h
  simp only [basket, List.mem_cons, List.not_mem_nil, or_false] at h
  rcases h with rfl | rfl | rfl <;> assumption

theorem basket_portable : basket.Portable {} (.dict []) ∧ ∀ fd ∈ basket.fields, fd.field.Nodes FirmNode :=
  ⟨{ wf := by unfold ClassDef.WF; decide
     simple := basket_fields ⟨rfl, rfl⟩ ⟨rfl, rfl⟩ ⟨rfl, rfl⟩
     names := by unfold ClassDef.NamesDisjoint DistinctExt; decide
     unfiltered := rfl
     shown := basket_fields ⟨by decide, by decide, trivial⟩ ⟨by decide, by decide, trivial⟩ ⟨by decide, trivial⟩
     nodes := basket_fields ⟨trivial, trivial⟩ ⟨fun k k' h => by cases h; rfl, int_roundTrips⟩ trivial },
   basket_fields ⟨rfl, trivial⟩ ⟨rfl, trivial⟩ trivial⟩

end Samples

open Samples in
example : ∃ N, ∀ n, N ≤ n → ∃ e, runExport basketEnv n {} basket (.inst
      [(.str "items", .list [.inst "Item" [(.str "qty", .int 1), (.str "tag", .str "x")]]),
       (.str "prices", .dict [(.int 4, .int 5)]),
       (.str "next", .inst "Basket" [(.str "items", .none), (.str "prices", .none), (.str "next", .none)])]) = .ok e ∧
    runImport basketEnv n ictx basket (.inst []) e = .ok
      [(.str "items", .list [.inst "Item" [(.str "qty", .int 1), (.str "tag", .str "x")]]),
       (.str "prices", .dict [(.int 4, .int 5)]),
       (.str "next", .inst "Basket" [(.str "items", .none), (.str "prices", .none), (.str "next", .none)])] :=
  C32_imported_round_trip basketEnv {} ictx rfl ⟨rfl, ⟨rfl, rfl⟩, rfl, rfl, rfl, rfl⟩
    (by
      intro k c h
      simp only [basketEnv] at h
      split at h
      · cases h; subst k; exact ⟨rfl, item_portable⟩
      · split at h
        · cases h; subst k; exact ⟨rfl, basket_portable⟩
        · cases h)
    (by intro a b; simp [basketEnv]) basket basket_portable 5
    [(.str "contents", .list [.dict [(.str "qty", .int 1), (.str "label", .str "x")]]),
     (.str "prices", .dict [(.int 4, .int 5)]), (.str "next", .dict [])] _ rfl

end Verif
