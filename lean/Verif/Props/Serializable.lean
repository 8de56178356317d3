import Verif.Lib.Serializable
import Verif.Props.Meta

/-!
# C88: the options of a calculated field
-/
namespace Verif.Lib.Serializable

open Verif Verif.Lib.Meta

/-- The type that the arguments name: `none` if they name none. -/
def named (base : TypeCls) (arg : Arg) (kw : Kwargs) : Option TypeArg :=
  match arg with
  | .func => if kw.type.isSome then Option.none else some (.cls base)
  | .none => some (kw.type.getD (.cls base))
  | .type (.cls c) => if kw.type.isSome then Option.none else some (.cls c)
  | .type (.inst i) => some (.inst i)
  | .other => Option.none

theorem serializable_eq (base : TypeCls) (h : Heap) (hint : Nat) (arg : Arg) (kw : Kwargs) :
    serializable base h hint arg kw = match named base arg kw with
      | some t => withType h hint kw t
      | Option.none => (.typeError, h) := by
  unfold serializable named
  cases arg with
  | func => cases kw.type <;> rfl
  | none => rfl
  | type t => cases t <;> cases kw.type <;> rfl
  | other => rfl

/-- **C88, a type class**: if a type class is named (or none, then `BaseType`), the calculated field gets a new type object, made from the class with the given
options; its export level is `export_level` if given, else the one that `serialize_when_none` stands for, else unset. No existing type object changes. -/
theorem C88_class (base : TypeCls) (h : Heap) (hint : Nat) (arg : Arg) (kw : Kwargs) (c : TypeCls) (hn : named base arg kw = some (.cls c))
    (hk : ∀ k ∈ kw.rest.keys, k ∈ c.params) (hnd : kw.rest.Nodup) :
    ∃ o, serializable base h hint arg kw = (.ok h.length, h ++ [o]) ∧
      (∀ k v, kw.rest.get? k = some v → o.spec.get? k = some v) ∧ (∀ k, kw.rest.get? k = Option.none → o.spec.get? k = c.attrs.get? k) ∧
      (∀ l, kw.exportLevel = some l → o.level = some l) ∧
      (kw.exportLevel = Option.none → kw.serializeWhenNone = some true → o.level = some 10) ∧
      (kw.exportLevel = Option.none → kw.serializeWhenNone = some false → o.level = some 1) ∧
      (kw.exportLevel = Option.none → kw.serializeWhenNone = Option.none → o.level = Option.none) := by
  refine ⟨{ spec := c.attrs.update kw.rest, hint := hint, level := setLevel kw.exportLevel kw.serializeWhenNone }, ?_, ?_, ?_, ?_, ?_, ?_, ?_⟩
  · rw [serializable_eq, hn]
    show construct h hint c kw = _
    unfold construct
    rw [if_pos (by simpa [List.all_eq_true] using hk)]
  · intro k v hv; simp only []; rw [Dict.get?_update _ _ hnd, hv]; rfl
  · intro k hv; simp only []; rw [Dict.get?_update _ _ hnd, hv]; rfl
  · intro l hl; simp [hl, setLevel]
  · intro h1 h2; simp [h1, h2, setLevel]
  · intro h1 h2; simp [h1, h2, setLevel]
  · intro h1 h2; simp [h1, h2, setLevel]

theorem setAttrs_get (i : Nat) (h : Heap) (rest : Attrs) (hd : "default" ∉ rest.keys) (hnd : rest.Nodup) :
    ∃ h', setAttrs i h rest = (.ok i, h') ∧ h'.length = h.length ∧ (∀ j, j ≠ i → h'[j]? = h[j]?) ∧
      ∀ o, h[i]? = some o → ∃ o', h'[i]? = some o' ∧ o' = { o with spec := o'.spec } ∧ ∀ k, o'.spec.get? k = (rest.get? k).or (o.spec.get? k) := by
  induction rest generalizing h with
  | nil => exact ⟨h, rfl, rfl, fun _ _ => rfl, fun o ho => ⟨o, ho, rfl, fun _ => rfl⟩⟩
  | cons kv r ih =>
    obtain ⟨k, v⟩ := kv
    have hk : ¬ k = "default" := fun e => hd (by simp [e])
    have hnd' : k ∉ Dict.keys r ∧ Dict.Nodup r := by
      unfold Dict.Nodup at hnd ⊢
      rw [Dict.keys_cons, List.nodup_cons] at hnd
      exact hnd
    obtain ⟨h', h1, h2, h3, h4⟩ := ih (h.modify i fun o => { o with spec := o.spec.set k v }) (fun hm => hd (by simp [hm])) hnd'.2
    refine ⟨h', ?_, by rw [h2]; simp, ?_, ?_⟩
    · unfold setAttrs; rw [if_neg hk]; exact h1
    · intro j hj
      rw [h3 j hj, List.getElem?_modify]
      have : ¬ i = j := fun e => hj e.symm
      simp [this]
    · intro o ho
      obtain ⟨o', h5, h6, h7⟩ := h4 { o with spec := o.spec.set k v } (by rw [List.getElem?_modify]; simp [ho])
      refine ⟨o', h5, ?_, ?_⟩
      · rw [h6]
      · intro k'
        rw [h7 k', Dict.get?_cons]
        simp only []
        rw [Dict.get?_set]
        by_cases e : k = k'
        · subst e
          have : Dict.get? r k = Option.none := (Dict.get?_eq_none r k).2 hnd'.1
          simp [this]
        · have e' : (k == k') = false := by simpa using e
          simp [e]

/-- **C88, a type instance**: if a type instance is named, the calculated field uses this very object: the given options are set on it, its other options stay, and
no other type object changes. Its export level is set anew from the arguments. So a level that was given to the instance itself is lost, even if the call
mentions none: see `C88_counterexample_level`. -/
theorem C88_instance (base : TypeCls) (h : Heap) (hint : Nat) (arg : Arg) (kw : Kwargs) (i : Nat) (o : TypeObj Attrs) (hn : named base arg kw = some (.inst i))
    (ho : h[i]? = some o) (hd : "default" ∉ kw.rest.keys) (hnd : kw.rest.Nodup) :
    ∃ h' o', serializable base h hint arg kw = (.ok i, h') ∧ h'.length = h.length ∧ (∀ j, j ≠ i → h'[j]? = h[j]?) ∧ h'[i]? = some o' ∧
      (∀ k v, kw.rest.get? k = some v → o'.spec.get? k = some v) ∧ (∀ k, kw.rest.get? k = Option.none → o'.spec.get? k = o.spec.get? k) ∧
      (∀ l, kw.exportLevel = some l → o'.level = some l) ∧
      (kw.exportLevel = Option.none → kw.serializeWhenNone = some true → o'.level = some 10) ∧
      (kw.exportLevel = Option.none → kw.serializeWhenNone = some false → o'.level = some 1) ∧
      (kw.exportLevel = Option.none → kw.serializeWhenNone = Option.none → o'.level = Option.none) ∧
      o'.hint = o.hint ∧ o'.inners = o.inners ∧ o'.name = o.name ∧ o'.owner = o.owner := by
  obtain ⟨h', h1, h2, h3, h4⟩ := setAttrs_get i (h.modify i fun o => { o with level := setLevel kw.exportLevel kw.serializeWhenNone }) kw.rest hd hnd
  obtain ⟨o', h5, h6, h7⟩ := h4 { o with level := setLevel kw.exportLevel kw.serializeWhenNone } (by rw [List.getElem?_modify]; simp [ho])
  have hl : o'.level = setLevel kw.exportLevel kw.serializeWhenNone := by rw [h6]
  refine ⟨h', o', ?_, by rw [h2]; simp, ?_, h5, ?_, ?_, ?_, ?_, ?_, ?_, by rw [h6], by rw [h6], by rw [h6], by rw [h6]⟩
  · rw [serializable_eq, hn]; exact h1
  · intro j hj
    rw [h3 j hj, List.getElem?_modify]
    have : ¬ i = j := fun e => hj e.symm
    simp [this]
  · intro k v hv; rw [h7, hv]; rfl
  · intro k hv; rw [h7, hv]; rfl
  · intro l e; rw [hl, e]; rfl
  · intro e1 e2; rw [hl, e1, e2]; rfl
  · intro e1 e2; rw [hl, e1, e2]; rfl
  · intro e1 e2; rw [hl, e1, e2]; rfl

theorem setAttrs_default (i : Nat) (h : Heap) (rest : Attrs) (hd : "default" ∈ rest.keys) : (setAttrs i h rest).1 = .attributeError := by
  induction rest generalizing h with
  | nil => simp at hd
  | cons kv r ih =>
    obtain ⟨k, v⟩ := kv
    unfold setAttrs
    by_cases e : k = "default"
    · rw [if_pos e]
    · rw [if_neg e]
      apply ih
      rcases List.mem_cons.1 (by simpa using hd) with h | h
      · exact absurd h.symm e
      · exact h

/-- **C88, errors**: anything but a function, a type class, a type instance or nothing as the first argument raises `TypeError`, as does an option that the
constructor of the class does not have, or a `type` besides a function or class; then no type object changes. A `default` for a type instance raises
`AttributeError`. -/
theorem C88_errors (base : TypeCls) (h : Heap) (hint : Nat) (kw : Kwargs) :
    serializable base h hint .other kw = (.typeError, h) ∧
    (kw.type.isSome → serializable base h hint .func kw = (.typeError, h) ∧ ∀ c, serializable base h hint (.type (.cls c)) kw = (.typeError, h)) ∧
    (∀ arg c, named base arg kw = some (.cls c) → (∃ k ∈ kw.rest.keys, k ∉ c.params) → serializable base h hint arg kw = (.typeError, h)) ∧
    (∀ arg i, named base arg kw = some (.inst i) → "default" ∈ kw.rest.keys → (serializable base h hint arg kw).1 = .attributeError) := by
  refine ⟨rfl, ?_, ?_, ?_⟩
  · intro ht
    refine ⟨?_, fun c => ?_⟩
    · rw [serializable_eq]; simp [named, ht]
    · rw [serializable_eq]; simp [named, ht]
  · rintro arg c hn ⟨k, hk, hc⟩
    rw [serializable_eq, hn]
    show construct h hint c kw = _
    unfold construct
    rw [if_neg]
    simp only [List.all_eq_true, decide_eq_true_eq]
    exact fun h' => hc (h' k hk)
  · intro arg i hn hd
    rw [serializable_eq, hn]
    exact setAttrs_default _ _ _ hd

/-! ## The hypotheses are met -/

def baseCls : TypeCls := { params := ["required", "default", "serialized_name"], attrs := [("required", .bool false)] }

/-- One existing type object, `IntType(required=True, export_level=DROP)`. -/
def heap1 : Heap := [{ spec := [("required", .bool true)], hint := 0, level := some 0 }]

/-- `serializable(IntType(export_level=DROP), serialized_name='n')`: the level is lost, the field will be exported. -/
theorem C88_counterexample_level :
    ((serializable baseCls heap1 1 (.type (.inst 0)) { rest := [("serialized_name", .str "n")] }).2.map fun o => (o.spec, o.level)) =
      [([("required", .bool true), ("serialized_name", .str "n")], Option.none)] := rfl

example : ∃ h' o', serializable baseCls heap1 1 (.type (.inst 0)) { rest := [("serialized_name", .str "n")] } = (.ok 0, h') ∧ h'[0]? = some o' ∧
    o'.spec.get? "serialized_name" = some (.str "n") ∧ o'.level = Option.none := by
  obtain ⟨h', o', h1, -, -, h2, h3, -, -, -, -, h4, -⟩ := C88_instance baseCls heap1 1 (.type (.inst 0)) { rest := [("serialized_name", .str "n")] } 0 _ rfl rfl (by decide) (by unfold Dict.Nodup; decide)
  exact ⟨h', o', h1, h2, h3 _ _ rfl, h4 rfl rfl⟩

example : ∃ o, serializable baseCls heap1 1 .none { serializeWhenNone := some false } = (.ok 1, heap1 ++ [o]) ∧ o.level = some 1 := by
  obtain ⟨o, h1, -, -, -, -, h2, -⟩ := C88_class baseCls heap1 1 .none { serializeWhenNone := some false } baseCls rfl (by simp) (by unfold Dict.Nodup; decide)
  exact ⟨o, h1, h2 rfl rfl⟩

end Verif.Lib.Serializable
