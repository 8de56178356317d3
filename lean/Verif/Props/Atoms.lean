import Verif.Lib.Atoms
import Verif.Core.InstanceLemmas
import Verif.Samples

/-!
# C87: the atoms of a model
-/
namespace Verif.Lib.Atoms

open Verif

theorem loop_eq (mapping : Option (String → R Val)) (keys : List String) (filter : Option (Atom → Bool)) (fields : List FieldDef) :
    loop mapping keys filter fields = (fields.map (atomOf mapping keys)).filter (keep filter) := by
  induction fields with
  | nil => rfl
  | cons fd r ih =>
    unfold loop
    rw [List.map_cons, List.filter_cons, ih]

theorem keep_none (l : List Atom) : l.filter (keep none) = l := List.filter_eq_self.2 (fun _ _ => rfl)

/-- **C87, keys**: the iteration raises `TypeError` exactly when a key is asked for that is none of `name`, `field`, `value`. -/
theorem C87_keys (fields : List FieldDef) (mapping : Option (String → R Val)) (keys : List String) (filter : Option (Atom → Bool)) :
    ((∃ as, atoms fields mapping keys filter = .ok as) ↔ ∀ k ∈ keys, k = "name" ∨ k = "field" ∨ k = "value") ∧
    ((∃ k ∈ keys, k ≠ "name" ∧ k ≠ "field" ∧ k ≠ "value") → atoms fields mapping keys filter = .error (.other "TypeError")) := by
  have h : (keys.all (fun k => decide (k ∈ ["name", "field", "value"])) = true) ↔ ∀ k ∈ keys, k = "name" ∨ k = "field" ∨ k = "value" := by
    simp [List.all_eq_true]
  unfold atoms
  constructor
  · constructor
    · rintro ⟨as, ha⟩
      split at ha
      · rename_i h1; exact h.1 h1
      · cases ha
    · intro h1; rw [if_pos (h.2 h1)]; exact ⟨_, rfl⟩
  · rintro ⟨k, hk, h1, h2, h3⟩
    rw [if_neg]
    intro h4
    rcases h.1 h4 k hk with e | e | e
    · exact h1 e
    · exact h2 e
    · exact h3 e

/-- **C87, one atom per field**: without a filter there is one atom for each field, in the order of the schema. Its name and field are those of the schema if they
were asked for and `None` otherwise; its value is what the mapping has under the name of the field, if values were asked for and there is a mapping whose lookup
succeeds, and `Undefined` otherwise. -/
theorem C87_one_per_field (fields : List FieldDef) (mapping : Option (String → R Val)) (keys : List String) (as : List Atom)
    (h : atoms fields mapping keys none = .ok as) :
    as.length = fields.length ∧ ∀ (i : Nat) (fd : FieldDef), fields[i]? = some fd → ∃ a, as[i]? = some a ∧
      ("name" ∈ keys → a.name = some fd.name) ∧ ("name" ∉ keys → a.name = none) ∧
      ("field" ∈ keys → a.field = some fd) ∧ ("field" ∉ keys → a.field = none) ∧
      (∀ m v, mapping = some m → "value" ∈ keys → m fd.name = .ok v → a.value = v) ∧
      (∀ m e, mapping = some m → m fd.name = .error e → a.value = .undef) ∧
      ("value" ∉ keys → a.value = .undef) ∧ (mapping = none → a.value = .undef) := by
  unfold atoms at h
  split at h
  · cases h
    rw [loop_eq, keep_none]
    refine ⟨by simp, ?_⟩
    intro i fd hfd
    refine ⟨atomOf mapping keys fd, by simp [hfd], ?_, ?_, ?_, ?_, ?_, ?_, ?_, ?_⟩
    · intro hk; simp [atomOf, hk]
    · intro hk; simp [atomOf, hk]
    · intro hk; simp [atomOf, hk]
    · intro hk; simp [atomOf, hk]
    · intro m v hm hk hv; simp [atomOf, readValue, hm, hk, hv]
    · intro m e hm he
      simp only [atomOf, readValue, hm, he]
      split <;> rfl
    · intro hk
      simp only [atomOf, readValue]
      cases mapping with
      | none => rfl
      | some m => simp [hk]
    · intro hm; simp [atomOf, readValue, hm]
  · cases h

/-- **C87, filters**: a filter selects among the atoms, without changing or reordering them. -/
theorem C87_filter (fields : List FieldDef) (mapping : Option (String → R Val)) (keys : List String) (f : Atom → Bool) (as : List Atom)
    (h : atoms fields mapping keys none = .ok as) : atoms fields mapping keys (some f) = .ok (as.filter f) := by
  unfold atoms at h ⊢
  split at h
  · rename_i hk
    rw [if_pos hk]
    cases h
    rw [loop_eq, loop_eq, keep_none]
    rfl
  · cases h

/-- **C87, setters**: of the atoms of a schema, those with a setter and those without one are complementary; but if the field is not among the keys asked for,
no atom counts as one with a setter. -/
theorem C87_setters (fields : List FieldDef) (mapping : Option (String → R Val)) (keys : List String) (as : List Atom)
    (h : atoms fields mapping keys none = .ok as) :
    ∃ w wo, atoms fields mapping keys (some hasSetter) = .ok w ∧ atoms fields mapping keys (some notSetter) = .ok wo ∧
      (∀ a ∈ as, a ∈ w ↔ a ∉ wo) ∧ w.length + wo.length = as.length ∧
      ("field" ∈ keys → w.map (·.field) = (fields.filter fun fd => fd.fset.isSome).map some ∧ wo.map (·.field) = (fields.filter fun fd => fd.fset.isNone).map some) ∧
      ("field" ∉ keys → w = [] ∧ wo = as) := by
  have has : as = fields.map (atomOf mapping keys) := by
    unfold atoms at h
    split at h
    · cases h; rw [loop_eq, keep_none]
    · cases h
  refine ⟨_, _, C87_filter _ _ _ _ _ h, C87_filter _ _ _ _ _ h, ?_, ?_, ?_, ?_⟩
  · intro a ha
    simp only [List.mem_filter, ha, true_and, notSetter, Bool.not_eq_true', Bool.not_eq_false]
  · clear has h
    induction as with
    | nil => rfl
    | cons a r ih =>
      rw [List.filter_cons, List.filter_cons, notSetter]
      cases hasSetter a <;> simp <;> omega
  · intro hk
    have e : ∀ fd, hasSetter (atomOf mapping keys fd) = fd.fset.isSome := by intro fd; simp [hasSetter, atomOf, hk]
    have e2 : ∀ fd, (atomOf mapping keys fd).field = some fd := by intro fd; simp [atomOf, hk]
    subst has
    clear h
    constructor
    · induction fields with
      | nil => rfl
      | cons fd r ih =>
        rw [List.map_cons, List.filter_cons, List.filter_cons, e]
        cases fd.fset.isSome <;> simp [ih, e2]
    · induction fields with
      | nil => rfl
      | cons fd r ih =>
        rw [List.map_cons, List.filter_cons, List.filter_cons, notSetter, e]
        cases fd.fset <;> simp [ih, e2]
  · intro hk
    have e : ∀ a ∈ as, hasSetter a = false := by
      intro a ha
      rw [has] at ha
      obtain ⟨fd, -, rfl⟩ := List.mem_map.1 ha
      simp [hasSetter, atomOf, hk]
    constructor
    · exact List.filter_eq_nil_iff.2 (fun a ha => by rw [e a ha]; simp)
    · exact List.filter_eq_self.2 (fun a ha => by rw [notSetter, e a ha]; rfl)

/-- **C87, instances**: `instance.atoms()` gives for every field, in the order of the schema, what reading the attribute gives, and `Undefined` if the reading
raises. -/
theorem C87_instance (c : ClassDef) (hc : c.WF) (I : Inst) :
    ∃ as, instAtoms c I = .ok as ∧ as.length = c.fields.length ∧ ∀ (i : Nat) (fd : FieldDef), c.fields[i]? = some fd → ∃ a, as[i]? = some a ∧
      a.name = some fd.name ∧ a.field = some fd ∧
      (∀ v, getAttr c I fd.name = .ok v → a.value = v) ∧ (∀ e, getAttr c I fd.name = .error e → a.value = .undef) := by
  obtain ⟨as, h⟩ := (C87_keys c.fields (some (I.getItem c)) ["name", "field", "value"] none).1.2 (by simp)
  obtain ⟨h1, h2⟩ := C87_one_per_field _ _ _ _ h
  refine ⟨as, h, h1, ?_⟩
  intro i fd hfd
  obtain ⟨a, ha, h3, -, h5, -, h7, h8, -, -⟩ := h2 i fd hfd
  have hg : I.getItem c fd.name = getAttr c I fd.name := by
    unfold Inst.getItem
    rw [field?_of_mem hc (List.mem_of_getElem? hfd)]
  refine ⟨a, ha, h3 (by simp), h5 (by simp), ?_, ?_⟩
  · intro v hv; exact h7 _ v rfl (by simp) (by rw [hg, hv])
  · intro e he; exact h8 _ e rfl (by rw [hg, he])

theorem definedOr_read (o : Option Val) : (match definedOr o with | .ok v => v | .error _ => .undef) = o.getD .undef := by
  cases o with
  | none => rfl
  | some v =>
    unfold definedOr
    cases v <;> rfl

/-- **C87, exports**: these are the values an export of the instance starts from. -/
theorem C87_export_reads (c : ClassDef) (hc : c.WF) (I : Inst) (hI : I.WF) (as : List Atom) (h : instAtoms c I = .ok as) :
    as.map (·.value) = c.fields.map fun fd => Src.read fd (.inst I.content) := by
  unfold instAtoms atoms at h
  rw [if_pos (by decide)] at h
  cases h
  rw [loop_eq, keep_none, List.map_map]
  apply List.map_congr_left
  intro fd hfd
  simp only [Function.comp, atomOf, readValue, Inst.getItem, field?_of_mem hc hfd]
  have e : getAttr c I fd.name = match fd.fget with
      | some g => match g I.content with
        | some v => definedOr (some v)
        | none => .error (.other "Exception")
      | none => definedOr (I.lookup (.str fd.name)) := by
    simp only [getAttr, field?_of_mem hc hfd]
    rfl
  show (match getAttr c I fd.name with | .ok v => v | .error _ => .undef) = _
  rw [e]
  unfold Src.read
  cases fd.fget with
  | some g =>
    simp only []
    cases g I.content with
    | none => rfl
    | some v => exact definedOr_read (some v)
  | none =>
    simp only []
    rw [definedOr_read]
    unfold rawValue
    rw [Inst.content_get hI]

/-! ## The hypotheses are met -/

/-- A class with a plain field, a calculated field whose getter fails, and a settable one. -/
def sampleFields : List FieldDef :=
  [{ name := "a", field := ⟨.leaf { toNative := fun _ v => .ok v }, {}⟩ },
   { name := "b", field := ⟨.leaf { toNative := fun _ v => .ok v }, {}⟩, fget := some fun _ => none },
   { name := "c", field := ⟨.leaf { toNative := fun _ v => .ok v }, {}⟩, fget := some fun _ => some (.int 3), fset := some fun _ => .ok [] }]

def sampleClass : ClassDef := { name := "M", fields := sampleFields }

example : sampleClass.WF := by unfold ClassDef.WF; decide
example : (instAtoms sampleClass { valid := [(.str "a", .int 1)] }).toOption.map (fun as => as.map fun a => (a.name, a.field.map (·.name), a.value)) =
    some [(some "a", some "a", .int 1), (some "b", some "b", .undef), (some "c", some "c", .int 3)] := rfl
example : (atoms sampleFields none ["name"] (some hasSetter)).toOption.map (fun as => as.map (·.name)) = some [] := rfl
example : (atoms sampleFields none ["name", "field"] (some hasSetter)).toOption.map (fun as => as.map (·.name)) = some [some "c"] := rfl
example : atoms sampleFields none ["nme"] = .error (.other "TypeError") := (C87_keys _ _ _ _).2 ⟨"nme", by simp, by decide⟩

end Verif.Lib.Atoms
