import Verif.Props.Instance3
import Mathlib.Data.List.Perm.Subperm
import Mathlib.Data.List.Forall2

/-!
# C41, C42: the mapping interface and equality of instances
-/
namespace Verif

/-! ## C41 -/

/-- **C41.** In every state of an instance: the keys are declared fields, in declaration order, without duplicates;
`items()` is `keys()` zipped with `values()`. -/
theorem C41_keys_items_values (c : ClassDef) (hc : c.WF) (I : Inst) :
    (I.keys c).Sublist (c.fields.map (·.name)) ∧ (I.keys c).Nodup ∧ I.items c = (I.keys c).zip (I.values c) := by
  have hsub : (I.keys c).Sublist (c.fields.map (·.name)) := List.filter_sublist.map _
  refine ⟨hsub, hsub.nodup hc, ?_⟩
  unfold Inst.items Inst.values
  generalize I.keys c = ks
  induction ks with
  | nil => rfl
  | cons k ks ih => simp [ih]

/-- **C41.** For an ordinary field (no getter, no setter) that does not hold an explicit `Undefined`, all ways to look at
it agree: it is a key iff `in` says so iff `[]` returns a value; then `[]` and `get` return the value listed by `items()`;
otherwise `[]` raises `UndefinedValueError` and `get` returns the default. -/
theorem C41_reads_agree (c : ClassDef) (hc : c.WF) (I : Inst) (fd : FieldDef) (hfd : Plain c fd)
    (hu : I.lookup (.str fd.name) ≠ some .undef) (dflt : Val) :
    (fd.name ∈ I.keys c ↔ I.contains c fd.name = true) ∧
    (∀ v, (fd.name, v) ∈ I.items c ↔ I.getItem c fd.name = .ok v) ∧
    (∀ v, (fd.name, v) ∈ I.items c → I.get c fd.name dflt = .ok v ∧ getAttr c I fd.name = .ok v) ∧
    (fd.name ∉ I.keys c → I.getItem c fd.name = .error (.other "UndefinedValueError") ∧ I.get c fd.name dflt = .ok dflt) := by
  have hk : fd.name ∈ I.keys c ↔ (I.lookup (.str fd.name)).isSome := by
    unfold Inst.keys
    simp only [List.mem_map, List.mem_filter, Bool.and_eq_true]
    constructor
    · rintro ⟨fd', ⟨_, _, h⟩, hn⟩
      rw [hn] at h
      exact h
    · intro h
      exact ⟨fd, ⟨hfd.mem, by rw [hfd.set]; rfl, h⟩, rfl⟩
  have hi : ∀ v, (fd.name, v) ∈ I.items c ↔ I.lookup (.str fd.name) = some v := by
    intro v
    unfold Inst.items
    simp only [List.mem_map, Prod.mk.injEq]
    constructor
    · rintro ⟨k, h1, rfl, h2⟩
      rw [hk] at h1
      unfold Inst.stored at h2
      cases hl : I.lookup (.str fd.name) with
      | none => rw [hl] at h1; cases h1
      | some w => rw [hl] at h2; rw [← h2]; rfl
    · intro h
      exact ⟨fd.name, hk.2 (by rw [h]; rfl), rfl, by unfold Inst.stored; rw [h]; rfl⟩
  have hfld : c.field? fd.name = some fd := field?_of_mem hc hfd.mem
  have hgi : I.getItem c fd.name = getAttr c I fd.name := by unfold Inst.getItem; rw [hfld]
  have hser : c.isSerializable fd.name = false := by
    unfold ClassDef.isSerializable
    rw [List.any_eq_false]
    intro fd' hfd' h
    simp only [Bool.and_eq_true, beq_iff_eq] at h
    have := name_inj hc hfd' hfd.mem h.1
    subst this
    rw [hfd.get] at h
    cases h.2
  have hga := getAttr_plain hc hfd I
  cases hl : I.lookup (.str fd.name) with
  | none =>
    rw [hl] at hga hk
    have hget : ∀ dflt, I.get c fd.name dflt = .ok dflt := by intro dflt; unfold Inst.get; rw [hga]; rfl
    refine ⟨?_, ?_, ?_, ?_⟩
    · rw [hk]; unfold Inst.contains; rw [hl, hser]; simp
    · intro v; rw [hi, hl, hgi, hga]; constructor <;> intro h <;> cases h
    · intro v h; rw [hi, hl] at h; cases h
    · intro _; rw [hgi, hga, hget]; exact ⟨rfl, rfl⟩
  | some w =>
    have hwu : w ≠ .undef := fun e => hu (by rw [hl, e])
    rw [hl] at hga hk
    have hga' : getAttr c I fd.name = .ok w := by rw [hga]; exact definedOr_ok.2 ⟨rfl, hwu⟩
    have hget : ∀ dflt, I.get c fd.name dflt = .ok w := by intro dflt; unfold Inst.get; rw [hga']
    refine ⟨?_, ?_, ?_, ?_⟩
    · rw [hk]; unfold Inst.contains; rw [hl, hget, hser]; simp [isUndef_false hwu]
    · intro v
      rw [hi, hl, hgi, hga']
      constructor
      · intro h; injection h with h; rw [h]
      · intro h; injection h with h; rw [h]
    · intro v h
      rw [hi, hl] at h
      injection h with h
      subst h
      exact ⟨hget _, hga'⟩
    · intro h; exact absurd (hk.2 rfl) h

/-- **C41.** Names that are not fields raise `UnknownFieldError` with `[]` in all three uses, and leave the
instance unchanged. -/
theorem C41_unknown_names (env : Env) (n : Nat) (c : ClassDef) (I : Inst) (name : String) (v : Val)
    (h : ∀ fd ∈ c.fields, fd.name ≠ name) :
    I.getItem c name = .error (.other "UnknownFieldError") ∧
    I.setItem env n c name v = (.error (.other "UnknownFieldError"), I) ∧
    I.delItem c name = (.error (.other "UnknownFieldError"), I) := by
  have : c.field? name = none := by
    unfold ClassDef.field?
    rw [List.find?_eq_none]
    intro fd hfd
    simpa using h fd hfd
  unfold Inst.getItem Inst.setItem Inst.delItem
  rw [this]
  exact ⟨rfl, rfl, rfl⟩

namespace Samples
/-- `class Cart(Model): n = IntType(); @serializable def double(self): return 2 * self.n` -/
def cart : ClassDef where
  name := "Cart"
  fields := [
    { name := "n", field := intF },
    { name := "double", field := intF,
      fget := some fun d => match Dict.get? d (.str "n") with | some (.int i) => some (.int (2 * i)) | _ => none }]
end Samples

open Samples in
/-- **C41, counterexample** for serializables: `m = Cart({'n': 2})`: `m['double']` is 4 but `dict(m.items())['double']` is
`None`. -/
theorem C41_counterexample_serializable :
    ∃ I, instInit env 5 cart [(.str "n", .int 2)] [] false newCtx = .ok I ∧ I.getItem cart "double" = .ok (.int 4) ∧
      I.items cart = [("n", .int 2), ("double", .none)] :=
  ⟨_, rfl, rfl, rfl⟩

open Samples in
/-- **C41, counterexample** for `len`: a lazy instance counts keys that are no fields. -/
theorem C41_counterexample_len :
    ∃ I, instInit env 5 item [(.str "zzz", .int 2)] [] true newCtx = .ok I ∧ I.keys item = [] ∧ I.len = 1 :=
  ⟨_, rfl, rfl, rfl⟩

open Samples in
/-- **C41, counterexample** for an explicitly assigned `Undefined`: the field is still listed as a key, but reading it raises. -/
theorem C41_counterexample_undefined :
    ∃ I I', instInit env 5 item [(.str "qty", .int 2)] [] false newCtx = .ok I ∧
      setAttr env 5 item I "qty" .undef = (.ok (), I') ∧ I'.keys item = ["qty", "tag"] ∧
      I'.getItem item "qty" = .error (.other "UndefinedValueError") :=
  ⟨_, _, rfl, rfl, rfl, rfl⟩

/-! ## C42: equality -/

/-- `a == b` for two instances of one class (`models.py:408-424`): for every key of `a`, `a.get(k) == b.get(k)`, where
a missing value reads `None`. -/
def instEq (c : ClassDef) (I J : Inst) : Bool :=
  (I.keys c).all fun k =>
    match I.get c k .none, J.get c k .none with
    | .ok v, .ok w => Val.pyEq v w
    | _, _ => false

mutual
/-- A value in which every model instance has all the fields `K` lists for its class, dict keys are unique. -/
def Full (K : String → List Key) : Val → Prop
  | .list xs => FullL K xs
  | .tuple xs => FullL K xs
  | .dict kvs => Dict.Nodup kvs ∧ FullD K kvs
  | .inst c d => Dict.Nodup d ∧ (∀ k, k ∈ Dict.keys d ↔ k ∈ K c) ∧ FullD K d
  | _ => True
def FullL (K : String → List Key) : List Val → Prop
  | [] => True
  | x :: xs => Full K x ∧ FullL K xs
def FullD (K : String → List Key) : List (Key × Val) → Prop
  | [] => True
  | (_, x) :: xs => Full K x ∧ FullD K xs
end

mutual
/-- No NaN anywhere in the value. -/
def NoNaN : Val → Prop
  | .list xs => NoNaNL xs
  | .tuple xs => NoNaNL xs
  | .dict kvs => NoNaND kvs
  | .inst _ d => NoNaND d
  | .flt .nan => False
  | .decimal (.nan _) => False
  | _ => True
def NoNaNL : List Val → Prop
  | [] => True
  | x :: xs => NoNaN x ∧ NoNaNL xs
def NoNaND : List (Key × Val) → Prop
  | [] => True
  | (_, x) :: xs => NoNaN x ∧ NoNaND xs
end

theorem FullL_iff {K : String → List Key} {xs : List Val} : FullL K xs ↔ ∀ x ∈ xs, Full K x := by
  induction xs with
  | nil => simp [FullL]
  | cons x xs ih => simp [FullL, ih]
theorem FullD_iff {K : String → List Key} {xs : List (Key × Val)} : FullD K xs ↔ ∀ x ∈ xs, Full K x.2 := by
  induction xs with
  | nil => simp [FullD]
  | cons x xs ih => obtain ⟨k, x⟩ := x; simp [FullD, ih]
theorem NoNaNL_iff {xs : List Val} : NoNaNL xs ↔ ∀ x ∈ xs, NoNaN x := by
  induction xs with
  | nil => simp [NoNaNL]
  | cons x xs ih => simp [NoNaNL, ih]
theorem NoNaND_iff {xs : List (Key × Val)} : NoNaND xs ↔ ∀ x ∈ xs, NoNaN x.2 := by
  induction xs with
  | nil => simp [NoNaND]
  | cons x xs ih => obtain ⟨k, x⟩ := x; simp [NoNaND, ih]

theorem pyEqList_iff {xs ys : List Val} : Val.pyEqList xs ys = true ↔ List.Forall₂ (fun x y => Val.pyEq x y = true) xs ys := by
  induction xs generalizing ys with
  | nil => cases ys <;> simp [Val.pyEqList]
  | cons x xs ih =>
    cases ys with
    | nil => simp [Val.pyEqList]
    | cons y ys => simp [Val.pyEqList, ih]

theorem pyEqDict_iff {xs ys : List (Key × Val)} : Val.pyEqDict xs ys = true ↔
    ∀ kv ∈ xs, ∃ y, Dict.get? ys kv.1 = some y ∧ Val.pyEq kv.2 y = true := by
  induction xs with
  | nil => simp [Val.pyEqDict]
  | cons x xs ih =>
    obtain ⟨k, x⟩ := x
    simp only [Val.pyEqDict, Bool.and_eq_true, ih, List.mem_cons, forall_eq_or_imp]
    refine and_congr ?_ Iff.rfl
    cases Dict.get? ys k <;> simp

/-- With the same keys on both sides, comparing instances is comparing dicts. -/
theorem pyEqInst_iff {xs ys : List (Key × Val)} (h : ∀ kv ∈ xs, kv.1 ∈ Dict.keys ys) : Val.pyEqInst xs ys = true ↔
    ∀ kv ∈ xs, ∃ y, Dict.get? ys kv.1 = some y ∧ Val.pyEq kv.2 y = true := by
  induction xs with
  | nil => simp [Val.pyEqInst]
  | cons x xs ih =>
    obtain ⟨k, x⟩ := x
    have hk := h (k, x) (by simp)
    simp only [Val.pyEqInst, Bool.and_eq_true, ih (fun kv hkv => h kv (by simp [hkv])), List.mem_cons, forall_eq_or_imp]
    refine and_congr ?_ Iff.rfl
    rw [← Dict.get?_isSome] at hk
    cases hg : Dict.get? ys k with
    | none => rw [hg] at hk; cases hk
    | some y => simp

/-- What a scalar is compared by. -/
inductive SKey
  | undef | none | num (q : Rat) | inf (neg : Bool) | nan | str (s : String) | bytes (bs : List Nat) | uuid (n : Nat)
  | date (d : Date) | datetime (aware : Bool) (us : Int) | timedelta (us : Int) | enum (c n : String) | obj (n : Nat)
  | compound
  deriving DecidableEq

def skey : Val → SKey
  | .undef => .undef
  | .none => .none
  | .str s => .str s
  | .bytes b => .bytes b
  | .uuid n => .uuid n
  | .date d => .date d
  | .datetime t => .datetime t.tz.isSome t.instant
  | .timedelta t => .timedelta t
  | .enum c n _ => .enum c n
  | .obj n => .obj n
  | .flt (.inf b) => .inf b
  | .decimal (.inf b) => .inf b
  | .flt .nan => .nan
  | .decimal (.nan _) => .nan
  | .list _ => .compound
  | .tuple _ => .compound
  | .dict _ => .compound
  | .inst .. => .compound
  | v => match v.toRat? with | some q => .num q | Option.none => .nan


theorem skey_num {v : Val} {q : Rat} (h : v.toRat? = some q) : skey v = .num q := by
  cases v with
  | flt f => cases f <;> simp_all [Val.toRat?, skey]
  | decimal d => cases d <;> simp_all [Val.toRat?, skey]
  | _ => simp_all [Val.toRat?, skey]

theorem toRat_dec (n : Bool) (c : Nat) (e : Int) : ∃ q, (Val.decimal (.fin n c e)).toRat? = some q := by
  simp only [Val.toRat?]
  split <;> exact ⟨_, rfl⟩

theorem skey_not_num {v : Val} (h : v.toRat? = none) (q : Rat) : skey v ≠ .num q := by
  cases v with
  | flt f => cases f <;> simp_all [Val.toRat?, skey]
  | decimal d =>
    cases d with
    | fin n c e => obtain ⟨q, hq⟩ := toRat_dec n c e; rw [hq] at h; cases h
    | _ => simp_all [Val.toRat?, skey]
  | _ => simp_all [Val.toRat?, skey]

theorem pyEq_num {a : Val} {q : Rat} (h : a.toRat? = some q) (b : Val) :
    Val.pyEq a b = true ↔ b.toRat? = some q := by
  have key : Val.pyEq a b = (match a.toRat?, b.toRat? with | some x, some y => x == y | _, _ => false) := by
    cases a with
    | flt f => cases f <;> first | (cases h; done) | (cases b with
        | flt g => cases g <;> rfl
        | decimal g => cases g <;> rfl
        | _ => rfl)
    | decimal f => cases f <;> first | (cases h; done) | (cases b with
        | flt g => cases g <;> rfl
        | decimal g => cases g <;> rfl
        | _ => rfl)
    | bool _ => cases b <;> rfl
    | int _ => cases b <;> rfl
    | _ => cases h
  rw [key, h]
  cases b.toRat? with
  | none => simp
  | some r => simp only [beq_iff_eq, Option.some.injEq]; exact eq_comm

theorem pyEq_num' {b : Val} {q : Rat} (h : b.toRat? = some q) (a : Val) (ha : a.toRat? = none) :
    Val.pyEq a b = false := by
  cases b with
  | flt f => cases f <;> first | (cases h; done) | (cases a with
      | flt g => cases g <;> first | rfl | cases ha
      | decimal g => cases g <;> first | rfl | (simp only [Val.pyEq, ha])
      | _ => first | rfl | cases ha)
  | decimal f => cases f <;> first | (cases h; done) | (cases a with
      | flt g => cases g <;> first | rfl | cases ha
      | decimal g => cases g <;> first | rfl | (simp only [Val.pyEq, ha])
      | _ => first | rfl | cases ha)
  | bool _ => cases a with
      | flt g => cases g <;> first | rfl | cases ha
      | decimal g => cases g <;> first | rfl | (simp only [Val.pyEq, ha])
      | _ => first | rfl | cases ha
  | int _ => cases a with
      | flt g => cases g <;> first | rfl | cases ha
      | decimal g => cases g <;> first | rfl | (simp only [Val.pyEq, ha])
      | _ => first | rfl | cases ha
  | _ => cases h

theorem pyEq_scalar (a b : Val) (h : skey a ≠ .compound ∨ skey b ≠ .compound) :
    Val.pyEq a b = true ↔ skey a = skey b ∧ skey a ≠ .nan := by
  cases ha : a.toRat? with
  | some q =>
    rw [pyEq_num ha, skey_num ha]
    cases hb : b.toRat? with
    | some r => rw [skey_num hb]; simp [eq_comm]
    | none => simp [Ne.symm (skey_not_num hb q)]
  | none =>
    cases hb : b.toRat? with
    | some r => rw [pyEq_num' hb a ha, skey_num hb]; simp [skey_not_num ha r]
    | none =>
      have hdec : ∀ n c e, ¬ (Val.decimal (.fin n c e)).toRat? = none := by
        intro n c e h; obtain ⟨q, hq⟩ := toRat_dec n c e; rw [hq] at h; cases h
      have hor : ∀ {p q : SKey}, p = .compound → q = .compound → ¬ (p ≠ .compound ∨ q ≠ .compound) := by
        rintro p q h1 h2 (h | h)
        · exact h h1
        · exact h h2
      cases a with
      | flt f =>
        cases f <;> cases b with
        | flt g => cases g <;> first
          | exact ⟨fun h => Bool.noConfusion (show false = true from h), fun h => SKey.noConfusion h.1⟩
          | exact ⟨fun h => Bool.noConfusion (show false = true from h), fun h => absurd rfl h.2⟩
          | (cases ha; done) | (cases hb; done) | simp [Val.pyEq, skey]
        | decimal g => cases g with
          | fin n c e => exact absurd hb (hdec _ _ _)
          | _ => first
            | exact ⟨fun h => Bool.noConfusion (show false = true from h), fun h => SKey.noConfusion h.1⟩
            | exact ⟨fun h => Bool.noConfusion (show false = true from h), fun h => absurd rfl h.2⟩
            | (cases ha; done) | simp [Val.pyEq, skey]
        | _ => first
            | exact ⟨fun h => Bool.noConfusion (show false = true from h), fun h => SKey.noConfusion h.1⟩
            | (cases ha; done) | (cases hb; done)
      | decimal f =>
        cases f with
        | fin n c e => exact absurd ha (hdec _ _ _)
        | _ =>
          cases b with
          | flt g => cases g <;> first
            | exact ⟨fun h => Bool.noConfusion (show false = true from h), fun h => SKey.noConfusion h.1⟩
            | exact ⟨fun h => Bool.noConfusion (show false = true from h), fun h => absurd rfl h.2⟩
            | (cases hb; done) | simp [Val.pyEq, skey]
          | decimal g => cases g with
            | fin n c e => exact absurd hb (hdec _ _ _)
            | _ => first
              | exact ⟨fun h => Bool.noConfusion (show false = true from h), fun h => SKey.noConfusion h.1⟩
              | exact ⟨fun h => Bool.noConfusion (show false = true from h), fun h => absurd rfl h.2⟩
              | simp [Val.pyEq, skey]
          | _ => first
            | exact ⟨fun h => Bool.noConfusion (show false = true from h), fun h => SKey.noConfusion h.1⟩
            | (cases hb; done)
      | _ =>
        cases b with
        | flt g => cases g <;> first
          | exact ⟨fun h => Bool.noConfusion (show false = true from h), fun h => SKey.noConfusion h.1⟩
          | (cases ha; done) | (cases hb; done)
        | decimal g => cases g with
          | fin n c e => exact absurd hb (hdec _ _ _)
          | _ => first
            | exact ⟨fun h => Bool.noConfusion (show false = true from h), fun h => SKey.noConfusion h.1⟩
            | (cases ha; done)
        | _ => first
          | exact ⟨fun h => Bool.noConfusion (show false = true from h), fun h => SKey.noConfusion h.1⟩
          | exact absurd h (hor rfl rfl)
          | (cases ha; done) | (cases hb; done)
          | (simp only [Val.pyEq, skey, beq_iff_eq, Bool.and_eq_true]; simp)


/-- Compound values are compared with values of the same constructor only. -/
theorem pyEq_compound {a b : Val} (h : Val.pyEq a b = true) (hb : skey a = .compound) :
    (∃ xs ys, a = .list xs ∧ b = .list ys ∧ Val.pyEqList xs ys = true) ∨
    (∃ xs ys, a = .tuple xs ∧ b = .tuple ys ∧ Val.pyEqList xs ys = true) ∨
    (∃ xs ys, a = .dict xs ∧ b = .dict ys ∧ xs.length = ys.length ∧ Val.pyEqDict xs ys = true) ∨
    (∃ c xs ys, a = .inst c xs ∧ b = .inst c ys ∧ Val.pyEqInst xs ys = true) := by
  have hbk : skey b = .compound := by
    by_cases hb' : skey b = .compound
    · exact hb'
    · have := (pyEq_scalar a b (Or.inr hb')).1 h
      rw [← this.1, hb]
  have hdec : ∀ n c e, skey (.decimal (.fin n c e)) ≠ .compound := by
    intro n c e h; obtain ⟨q, hq⟩ := toRat_dec n c e; rw [skey_num hq] at h; cases h
  have hcomp : ∀ v : Val, skey v = .compound → (∃ xs, v = .list xs) ∨ (∃ xs, v = .tuple xs) ∨ (∃ xs, v = .dict xs) ∨
      (∃ c xs, v = .inst c xs) := by
    intro v hv
    cases v with
    | flt f => cases f <;> cases hv
    | decimal f => cases f with
      | fin n c e => exact absurd hv (hdec _ _ _)
      | _ => cases hv
    | list xs => exact Or.inl ⟨_, rfl⟩
    | tuple xs => exact Or.inr (Or.inl ⟨_, rfl⟩)
    | dict xs => exact Or.inr (Or.inr (Or.inl ⟨_, rfl⟩))
    | inst c xs => exact Or.inr (Or.inr (Or.inr ⟨_, _, rfl⟩))
    | _ => cases hv
  rcases hcomp a hb with ⟨xs, rfl⟩ | ⟨xs, rfl⟩ | ⟨xs, rfl⟩ | ⟨c, xs, rfl⟩ <;>
    rcases hcomp b hbk with ⟨ys, rfl⟩ | ⟨ys, rfl⟩ | ⟨ys, rfl⟩ | ⟨c', ys, rfl⟩
  · exact Or.inl ⟨_, _, rfl, rfl, h⟩
  · cases h
  · cases h
  · cases h
  · cases h
  · exact Or.inr (Or.inl ⟨_, _, rfl, rfl, h⟩)
  · cases h
  · cases h
  · cases h
  · cases h
  · simp only [Val.pyEq, Bool.and_eq_true, beq_iff_eq] at h
    exact Or.inr (Or.inr (Or.inl ⟨_, _, rfl, rfl, h.1, h.2⟩))
  · cases h
  · cases h
  · cases h
  · cases h
  · simp only [Val.pyEq, Bool.and_eq_true, beq_iff_eq] at h
    obtain ⟨rfl, h⟩ := h
    exact Or.inr (Or.inr (Or.inr ⟨_, _, _, rfl, rfl, h⟩))

theorem sizeOf_pair_lt {k : Key} {v : Val} {d : List (Key × Val)} (h : (k, v) ∈ d) : sizeOf v < sizeOf d := by
  have := List.sizeOf_lt_of_mem h
  simp only [Prod.mk.sizeOf_spec] at this
  omega

/-- Keys contained in keys of the same number: the converse holds too. -/
theorem keys_back {xs ys : List (Key × Val)} (hx : Dict.Nodup xs) (hl : xs.length = ys.length)
    (h : ∀ kv ∈ xs, kv.1 ∈ Dict.keys ys) : ∀ kv ∈ ys, kv.1 ∈ Dict.keys xs := by
  have hsub : (Dict.keys xs) ⊆ (Dict.keys ys) := by
    intro k hk
    obtain ⟨kv, hkv, rfl⟩ := List.mem_map.1 hk
    exact h kv hkv
  have hsp : (Dict.keys xs).Subperm (Dict.keys ys) := List.subperm_of_subset hx hsub
  have hp := hsp.perm_of_length_le (by simp [Dict.keys, hl])
  intro kv hkv
  exact hp.symm.subset (List.mem_map_of_mem hkv)

/-- Equality of dict entries, in the other direction. -/
theorem entries_symm {xs ys : List (Key × Val)} (hx : Dict.Nodup xs) (hy : Dict.Nodup ys)
    (hback : ∀ kv ∈ ys, kv.1 ∈ Dict.keys xs)
    (hs : ∀ x y, (∃ k, (k, x) ∈ xs) → (∃ k, (k, y) ∈ ys) → Val.pyEq x y = true → Val.pyEq y x = true)
    (h : ∀ kv ∈ xs, ∃ y, Dict.get? ys kv.1 = some y ∧ Val.pyEq kv.2 y = true) :
    ∀ kv ∈ ys, ∃ x, Dict.get? xs kv.1 = some x ∧ Val.pyEq kv.2 x = true := by
  intro kv hkv
  obtain ⟨kv', hkv', hk⟩ := List.mem_map.1 (hback kv hkv)
  obtain ⟨y, hy1, hy2⟩ := h kv' hkv'
  rw [hk, Dict.get?_of_mem hy hkv] at hy1
  injection hy1 with hy1
  subst hy1
  refine ⟨kv'.2, ?_, hs _ _ ⟨_, hkv'⟩ ⟨_, hkv⟩ hy2⟩
  rw [← hk]
  exact Dict.get?_of_mem hx hkv'

theorem pyEq_symm_aux (K : String → List Key) (n : Nat) : ∀ a b : Val, sizeOf a < n → Full K a → Full K b →
    Val.pyEq a b = true → Val.pyEq b a = true := by
  induction n with
  | zero => intro a b h; omega
  | succ n ih =>
    intro a b hn ha hb h
    by_cases hk : skey a = .compound
    · rcases pyEq_compound h hk with ⟨xs, ys, rfl, rfl, he⟩ | ⟨xs, ys, rfl, rfl, he⟩ | ⟨xs, ys, rfl, rfl, hl, he⟩ |
        ⟨c, xs, ys, rfl, rfl, he⟩
      · rw [pyEqList_iff] at he
        simp only [Full, FullL_iff] at ha hb
        show Val.pyEqList ys xs = true
        rw [pyEqList_iff]
        simp only [Val.list.sizeOf_spec] at hn
        clear h hk
        induction he with
        | nil => exact .nil
        | cons hxy _ ih2 =>
          simp only [List.cons.sizeOf_spec] at hn
          refine .cons (ih _ _ (by omega) (ha _ (by simp)) (hb _ (by simp)) hxy) ?_
          exact ih2 (fun x hx => ha x (by simp [hx])) (fun x hx => hb x (by simp [hx])) (by omega)
      · rw [pyEqList_iff] at he
        simp only [Full, FullL_iff] at ha hb
        show Val.pyEqList ys xs = true
        rw [pyEqList_iff]
        simp only [Val.tuple.sizeOf_spec] at hn
        clear h hk
        induction he with
        | nil => exact .nil
        | cons hxy _ ih2 =>
          simp only [List.cons.sizeOf_spec] at hn
          refine .cons (ih _ _ (by omega) (ha _ (by simp)) (hb _ (by simp)) hxy) ?_
          exact ih2 (fun x hx => ha x (by simp [hx])) (fun x hx => hb x (by simp [hx])) (by omega)
      · rw [pyEqDict_iff] at he
        simp only [Full, FullD_iff] at ha hb
        simp only [Val.dict.sizeOf_spec] at hn
        show (ys.length == xs.length && Val.pyEqDict ys xs) = true
        rw [Bool.and_eq_true, pyEqDict_iff, beq_iff_eq]
        refine ⟨hl.symm, entries_symm ha.1 hb.1 (keys_back ha.1 hl ?_) ?_ he⟩
        · intro kv hkv
          obtain ⟨y, hy, _⟩ := he kv hkv
          rw [← Dict.get?_isSome, hy]; rfl
        · rintro x y ⟨k, hx⟩ ⟨k', hy⟩ hxy
          exact ih x y (by have := sizeOf_pair_lt hx; omega) (ha.2 _ hx) (hb.2 _ hy) hxy
      · simp only [Full, FullD_iff] at ha hb
        have hfwd : ∀ kv ∈ xs, kv.1 ∈ Dict.keys ys := fun kv hkv => (hb.2.1 _).2 ((ha.2.1 _).1 (List.mem_map_of_mem hkv))
        have hbk : ∀ kv ∈ ys, kv.1 ∈ Dict.keys xs := fun kv hkv => (ha.2.1 _).2 ((hb.2.1 _).1 (List.mem_map_of_mem hkv))
        rw [pyEqInst_iff hfwd] at he
        simp only [Val.inst.sizeOf_spec] at hn
        show (c == c && Val.pyEqInst ys xs) = true
        rw [Bool.and_eq_true, pyEqInst_iff hbk, beq_iff_eq]
        refine ⟨rfl, entries_symm ha.1 hb.1 hbk ?_ he⟩
        rintro x y ⟨k, hx⟩ ⟨k', hy⟩ hxy
        exact ih x y (by have := sizeOf_pair_lt hx; omega) (ha.2.2 _ hx) (hb.2.2 _ hy) hxy
    · have := (pyEq_scalar a b (Or.inl hk)).1 h
      rw [pyEq_scalar b a (Or.inr hk)]
      exact ⟨this.1.symm, by rw [← this.1]; exact this.2⟩

theorem entries_trans {xs ys zs : List (Key × Val)}
    (ht : ∀ x y z, (∃ k, (k, x) ∈ xs) → (∃ k, (k, y) ∈ ys) → (∃ k, (k, z) ∈ zs) → Val.pyEq x y = true → Val.pyEq y z = true →
      Val.pyEq x z = true)
    (h : ∀ kv ∈ xs, ∃ y, Dict.get? ys kv.1 = some y ∧ Val.pyEq kv.2 y = true)
    (h' : ∀ kv ∈ ys, ∃ y, Dict.get? zs kv.1 = some y ∧ Val.pyEq kv.2 y = true) :
    ∀ kv ∈ xs, ∃ z, Dict.get? zs kv.1 = some z ∧ Val.pyEq kv.2 z = true := by
  intro kv hkv
  obtain ⟨y, hy1, hy2⟩ := h kv hkv
  have hm := Dict.mem_of_get? hy1
  obtain ⟨z, hz1, hz2⟩ := h' _ hm
  exact ⟨z, hz1, ht _ _ _ ⟨_, hkv⟩ ⟨_, hm⟩ ⟨_, Dict.mem_of_get? hz1⟩ hy2 hz2⟩

theorem forall2_trans {xs ys zs : List Val}
    (ht : ∀ x y z, x ∈ xs → y ∈ ys → z ∈ zs → Val.pyEq x y = true → Val.pyEq y z = true → Val.pyEq x z = true)
    (h : List.Forall₂ (fun x y => Val.pyEq x y = true) xs ys) (h' : List.Forall₂ (fun x y => Val.pyEq x y = true) ys zs) :
    List.Forall₂ (fun x y => Val.pyEq x y = true) xs zs := by
  induction h generalizing zs with
  | nil => cases h'; exact .nil
  | cons hxy _ ih =>
    cases h' with
    | cons hyz h' =>
      refine .cons (ht _ _ _ (by simp) (by simp) (by simp) hxy hyz) (ih ?_ h')
      intro x y z hx hy hz
      exact ht x y z (by simp [hx]) (by simp [hy]) (by simp [hz])

theorem pyEq_trans_aux (K : String → List Key) (n : Nat) : ∀ a b c : Val, sizeOf a < n → Full K a → Full K b → Full K c →
    Val.pyEq a b = true → Val.pyEq b c = true → Val.pyEq a c = true := by
  induction n with
  | zero => intro a b c h; omega
  | succ n ih =>
    intro a b c hn ha hb hc h h'
    by_cases hk : skey a = .compound
    · rcases pyEq_compound h hk with ⟨xs, ys, rfl, rfl, he⟩ | ⟨xs, ys, rfl, rfl, he⟩ | ⟨xs, ys, rfl, rfl, hl, he⟩ |
        ⟨k, xs, ys, rfl, rfl, he⟩ <;>
      rcases pyEq_compound h' rfl with ⟨ys', zs, e1, rfl, he'⟩ | ⟨ys', zs, e1, rfl, he'⟩ | ⟨ys', zs, e1, rfl, hl', he'⟩ |
        ⟨k', ys', zs, e1, rfl, he'⟩ <;> first | (cases e1; done) | skip
      · cases e1
        simp only [Full, FullL_iff] at ha hb hc
        show Val.pyEqList xs zs = true
        rw [pyEqList_iff] at he he' ⊢
        refine forall2_trans ?_ he he'
        intro x y z hx hy hz
        have := List.sizeOf_lt_of_mem hx
        simp only [Val.list.sizeOf_spec] at hn
        exact ih x y z (by omega) (ha _ hx) (hb _ hy) (hc _ hz)
      · cases e1
        simp only [Full, FullL_iff] at ha hb hc
        show Val.pyEqList xs zs = true
        rw [pyEqList_iff] at he he' ⊢
        refine forall2_trans ?_ he he'
        intro x y z hx hy hz
        have := List.sizeOf_lt_of_mem hx
        simp only [Val.tuple.sizeOf_spec] at hn
        exact ih x y z (by omega) (ha _ hx) (hb _ hy) (hc _ hz)
      · cases e1
        simp only [Full, FullD_iff] at ha hb hc
        show (xs.length == zs.length && Val.pyEqDict xs zs) = true
        rw [pyEqDict_iff] at he he'
        rw [Bool.and_eq_true, pyEqDict_iff, beq_iff_eq]
        refine ⟨hl.trans hl', entries_trans ?_ he he'⟩
        rintro x y z ⟨_, hx⟩ ⟨_, hy⟩ ⟨_, hz⟩
        have := sizeOf_pair_lt hx
        simp only [Val.dict.sizeOf_spec] at hn
        exact ih x y z (by omega) (ha.2 _ hx) (hb.2 _ hy) (hc.2 _ hz)
      · cases e1
        simp only [Full, FullD_iff] at ha hb hc
        have h1 : ∀ kv ∈ xs, kv.1 ∈ Dict.keys ys := fun kv hkv => (hb.2.1 _).2 ((ha.2.1 _).1 (List.mem_map_of_mem hkv))
        have h2 : ∀ kv ∈ ys, kv.1 ∈ Dict.keys zs := fun kv hkv => (hc.2.1 _).2 ((hb.2.1 _).1 (List.mem_map_of_mem hkv))
        have h3 : ∀ kv ∈ xs, kv.1 ∈ Dict.keys zs := fun kv hkv => (hc.2.1 _).2 ((ha.2.1 _).1 (List.mem_map_of_mem hkv))
        rw [pyEqInst_iff h1] at he
        rw [pyEqInst_iff h2] at he'
        show (k == k && Val.pyEqInst xs zs) = true
        rw [Bool.and_eq_true, pyEqInst_iff h3, beq_iff_eq]
        refine ⟨rfl, entries_trans ?_ he he'⟩
        rintro x y z ⟨_, hx⟩ ⟨_, hy⟩ ⟨_, hz⟩
        have := sizeOf_pair_lt hx
        simp only [Val.inst.sizeOf_spec] at hn
        exact ih x y z (by omega) (ha.2.2 _ hx) (hb.2.2 _ hy) (hc.2.2 _ hz)
    · have h1 := (pyEq_scalar a b (Or.inl hk)).1 h
      have h2 := (pyEq_scalar b c (Or.inl (by rw [← h1.1]; exact hk))).1 h'
      rw [pyEq_scalar a c (Or.inl hk)]
      exact ⟨h1.1.trans h2.1, h1.2⟩

theorem pyEq_refl_aux (K : String → List Key) (n : Nat) : ∀ a : Val, sizeOf a < n → Full K a → NoNaN a → Val.pyEq a a = true := by
  induction n with
  | zero => intro a h; omega
  | succ n ih =>
    intro a hn ha hnan
    have hlist : ∀ xs : List Val, sizeOf xs < n → FullL K xs → NoNaNL xs → Val.pyEqList xs xs = true := by
      intro xs hs hf hnn
      rw [FullL_iff] at hf
      rw [NoNaNL_iff] at hnn
      rw [pyEqList_iff, List.forall₂_same]
      intro x hx
      have := List.sizeOf_lt_of_mem hx
      exact ih x (by omega) (hf x hx) (hnn x hx)
    have hent : ∀ xs : List (Key × Val), sizeOf xs < n → Dict.Nodup xs → FullD K xs → NoNaND xs →
        ∀ kv ∈ xs, ∃ y, Dict.get? xs kv.1 = some y ∧ Val.pyEq kv.2 y = true := by
      intro xs hs hnd hf hnn kv hkv
      rw [FullD_iff] at hf
      rw [NoNaND_iff] at hnn
      have := sizeOf_pair_lt hkv
      exact ⟨kv.2, Dict.get?_of_mem hnd hkv, ih _ (by omega) (hf _ hkv) (hnn _ hkv)⟩
    cases a with
    | list xs => simp only [Val.list.sizeOf_spec] at hn; exact hlist xs (by omega) ha hnan
    | tuple xs => simp only [Val.tuple.sizeOf_spec] at hn; exact hlist xs (by omega) ha hnan
    | dict xs =>
      simp only [Val.dict.sizeOf_spec] at hn
      show (xs.length == xs.length && Val.pyEqDict xs xs) = true
      rw [Bool.and_eq_true, pyEqDict_iff]
      exact ⟨by simp, hent xs (by omega) ha.1 ha.2 hnan⟩
    | inst c xs =>
      simp only [Val.inst.sizeOf_spec] at hn
      show (c == c && Val.pyEqInst xs xs) = true
      rw [Bool.and_eq_true, pyEqInst_iff (fun kv hkv => List.mem_map_of_mem hkv)]
      exact ⟨by simp, hent xs (by omega) ha.1 ha.2.2 hnan⟩
    | decimal d =>
      cases d with
      | fin s c e =>
        obtain ⟨q, hq⟩ := toRat_dec s c e
        rw [pyEq_num hq]
        exact hq
      | inf b => show (b == b) = true; simp
      | nan b => exact hnan.elim
    | flt f =>
      cases f with
      | fin m k => exact (pyEq_num rfl _).2 rfl
      | inf b => show (b == b) = true; simp
      | nan => exact hnan.elim
    | int i => exact (pyEq_num rfl _).2 rfl
    | bool i => exact (pyEq_num rfl _).2 rfl
    | _ =>
      rw [pyEq_scalar _ _ (Or.inl (by intro h; cases h))]
      exact ⟨rfl, by intro h; cases h⟩

/-- **C42 (values).** On values whose nested model instances have all their fields defined, Python `==` is
reflexive (without NaN), symmetric and transitive. -/
theorem C42_value_equality (K : String → List Key) :
    (∀ a, Full K a → NoNaN a → Val.pyEq a a = true) ∧
    (∀ a b, Full K a → Full K b → Val.pyEq a b = true → Val.pyEq b a = true) ∧
    (∀ a b c, Full K a → Full K b → Full K c → Val.pyEq a b = true → Val.pyEq b c = true → Val.pyEq a c = true) :=
  ⟨fun a => pyEq_refl_aux K _ a (Nat.lt_succ_self _), fun a b => pyEq_symm_aux K _ a b (Nat.lt_succ_self _),
    fun a b c => pyEq_trans_aux K _ a b c (Nat.lt_succ_self _)⟩


/-- Everything read from the instance is a `Full` value. -/
def FullInst (K : String → List Key) (c : ClassDef) (I : Inst) : Prop := ∀ name v, getAttr c I name = .ok v → Full K v

theorem get_total {c : ClassDef} (hc : c.WF) (hs : c.Simple) (I : Inst) {name : String} (h : name ∈ c.fields.map (·.name)) :
    ∃ v, I.get c name .none = .ok v ∧ (v = .none ∨ getAttr c I name = .ok v) := by
  obtain ⟨fd, hfd, rfl⟩ := List.mem_map.1 h
  unfold Inst.get
  rw [getAttr_plain hc (Simple.plain hs hfd)]
  cases hl : I.lookup (.str fd.name) with
  | none => exact ⟨.none, rfl, Or.inl rfl⟩
  | some w =>
    cases w with
    | undef => exact ⟨.none, rfl, Or.inl rfl⟩
    | _ => exact ⟨_, rfl, Or.inr rfl⟩

theorem instEq_iff {c : ClassDef} {I J : Inst} : instEq c I J = true ↔
    ∀ k ∈ I.keys c, ∃ v w, I.get c k .none = .ok v ∧ J.get c k .none = .ok w ∧ Val.pyEq v w = true := by
  unfold instEq
  rw [List.all_eq_true]
  refine forall_congr' fun k => imp_congr Iff.rfl ?_
  constructor
  · intro h
    cases hv : I.get c k .none with
    | error e => rw [hv] at h; cases h
    | ok v =>
      cases hw : J.get c k .none with
      | error e => rw [hv, hw] at h; cases h
      | ok w => rw [hv, hw] at h; exact ⟨v, w, rfl, rfl, h⟩
  · rintro ⟨v, w, hv, hw, h⟩
    rw [hv, hw]
    exact h

theorem keys_fields {c : ClassDef} {I : Inst} {k : String} (h : k ∈ I.keys c) : k ∈ c.fields.map (·.name) := by
  have : (I.keys c).Sublist (c.fields.map (·.name)) := List.filter_sublist.map _
  exact this.subset h

/-- **C42.** On instances of one model class (without serializables) that have the same fields defined, and whose values
are `Full`, `==` is reflexive (without NaN), symmetric and transitive. -/
theorem C42_equality (K : String → List Key) (c : ClassDef) (hc : c.WF) (hs : c.Simple) :
    (∀ I, FullInst K c I → (∀ name v, getAttr c I name = .ok v → NoNaN v) → instEq c I I = true) ∧
    (∀ I J, FullInst K c I → FullInst K c J → I.keys c = J.keys c → instEq c I J = true → instEq c J I = true) ∧
    (∀ I J L, FullInst K c I → FullInst K c J → FullInst K c L → I.keys c = J.keys c → J.keys c = L.keys c →
      instEq c I J = true → instEq c J L = true → instEq c I L = true) := by
  have hfull : ∀ I, FullInst K c I → ∀ k v, v = .none ∨ getAttr c I k = .ok v → Full K v := by
    rintro I hI k v (rfl | h)
    · trivial
    · exact hI k v h
  obtain ⟨hr, hsy, htr⟩ := C42_value_equality K
  refine ⟨?_, ?_, ?_⟩
  · intro I hI hn
    rw [instEq_iff]
    intro k hk
    obtain ⟨v, hv, hv'⟩ := get_total hc hs I (keys_fields hk)
    refine ⟨v, v, hv, hv, hr v (hfull I hI k v hv') ?_⟩
    rcases hv' with rfl | h
    · trivial
    · exact hn k v h
  · intro I J hI hJ hkeys h
    rw [instEq_iff] at h ⊢
    intro k hk
    rw [← hkeys] at hk
    obtain ⟨v, w, hv, hw, he⟩ := h k hk
    obtain ⟨v', hv1, hv2⟩ := get_total hc hs I (keys_fields hk)
    obtain ⟨w', hw1, hw2⟩ := get_total hc hs J (keys_fields hk)
    rw [hv] at hv1; cases hv1
    rw [hw] at hw1; cases hw1
    exact ⟨w, v, hw, hv, hsy v w (hfull I hI k v hv2) (hfull J hJ k w hw2) he⟩
  · intro I J L hI hJ hL hk1 hk2 h1 h2
    rw [instEq_iff] at h1 h2 ⊢
    intro k hk
    obtain ⟨v, w, hv, hw, he⟩ := h1 k hk
    obtain ⟨w2, u, hw2', hu, he2⟩ := h2 k (by rw [← hk1]; exact hk)
    rw [hw] at hw2'; cases hw2'
    obtain ⟨v', hv1, hv2⟩ := get_total hc hs I (keys_fields hk)
    obtain ⟨w', hw1, hw2⟩ := get_total hc hs J (keys_fields hk)
    obtain ⟨u', hu1, hu2⟩ := get_total hc hs L (keys_fields hk)
    rw [hv] at hv1; cases hv1
    rw [hw] at hw1; cases hw1
    rw [hu] at hu1; cases hu1
    exact ⟨v, u, hv, hu, htr v w u (hfull I hI k v hv2) (hfull J hJ k w hw2) (hfull L hL k u hu2) he he2⟩

open Samples in
/-- **C42, counterexample**: `==` is not symmetric.  `a = Item({'qty': 1}, init=False)`, `b = Item({'qty': 1, 'tag': 'x'})`:
`a == b` but not `b == a`. -/
theorem C42_counterexample_symmetry :
    ∃ I J, instInit env 5 item [(.str "qty", .int 1)] [] false { partial_ := true } = .ok I ∧
      instInit env 5 item [(.str "qty", .int 1), (.str "tag", .str "x")] [] false newCtx = .ok J ∧
      instEq item I J = true ∧ instEq item J I = false :=
  ⟨_, _, rfl, rfl, by decide, by decide⟩

open Samples in
/-- **C42, counterexample**: `==` is not transitive: `Item({'qty': 1})`, `Item({'qty': 1}, init=False)` and
`Item({'qty': 1, 'tag': 'x'})`. -/
theorem C42_counterexample_transitivity :
    ∃ I J L, instInit env 5 item [(.str "qty", .int 1)] [] false newCtx = .ok I ∧
      instInit env 5 item [(.str "qty", .int 1)] [] false { partial_ := true } = .ok J ∧
      instInit env 5 item [(.str "qty", .int 1), (.str "tag", .str "x")] [] false newCtx = .ok L ∧
      instEq item I J = true ∧ instEq item J L = true ∧ instEq item I L = false :=
  ⟨_, _, _, rfl, rfl, rfl, by decide, by decide, by decide⟩

/-! ## The hypotheses are met -/

namespace Samples

example : (("qty", Val.int 7) ∈ itemJ.items item ↔ itemJ.getItem item "qty" = .ok (.int 7)) ∧ itemJ.keys item = ["qty", "tag"] :=
  ⟨(C41_reads_agree item item_wf itemJ _ qty_plain (by simp [itemJ, Inst.lookup, Dict.get?]) .none).2.1 _, rfl⟩
example : (itemJ.setItem env 5 item "nope" .none).2 = itemJ :=
  congrArg Prod.snd (C41_unknown_names env 5 item itemJ "nope" .none (item_fields (by decide) (by decide))).2.1

/-- Nested values: an order with items. -/
theorem good_full : ∀ k v, (k, v) ∈ goodData →
    Full (fun c => if c = "Item" then [.str "qty", .str "tag"] else
      [.str "id", .str "items", .str "prices", .str "note", .str "parent"]) v ∧ NoNaN v := by
  intro k v h
  simp only [goodData, List.mem_cons, List.not_mem_nil, or_false, Prod.mk.injEq] at h
  rcases h with ⟨_, rfl⟩ | ⟨_, rfl⟩ | ⟨_, rfl⟩ | ⟨_, rfl⟩ | ⟨_, rfl⟩ <;>
    simp [Full, FullL, FullD, NoNaN, NoNaNL, NoNaND, Dict.Nodup, Dict.keys]

example : Val.pyEq (.list [.inst "Item" [(.str "qty", .int 1), (.str "tag", .none)], .flt (.fin 3 1)])
    (.list [.inst "Item" [(.str "tag", .none), (.str "qty", .bool true)], .decimal (.fin false 15 (-1))]) = true := by decide

example : ∃ I J, instInit env 5 item [(.str "qty", .int 1)] [] false newCtx = .ok I ∧
    instInit env 5 item [(.str "qty", .int 1), (.str "label", .none)] [] false newCtx = .ok J ∧ I.keys item = J.keys item ∧
    instEq item I J = true := ⟨_, _, rfl, rfl, rfl, by decide⟩

end Samples

end Verif
