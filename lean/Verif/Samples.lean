import Verif.Core.Export
import Verif.Core.ImportLemmas
import Verif.Spec

/-!
# A sample schema

Small concrete classes used by the `example`s beside the theorems, which show that the
hypotheses of each theorem are met by a non-trivial case.  Nothing here models `/repo`.
-/
namespace Verif.Samples

/-- Accepts ints only; refuses negative ones when validating. -/
def intLeaf : Leaf where
  toNative _ v := match v with | .int i => .ok (.int i) | _ => convErr "int"
  validators := [fun _ v => match v with | .int i => if i < 0 then validErr "neg" else .ok () | _ => .ok ()]

/-- Accepts strings; casts ints. -/
def strLeaf : Leaf where
  toNative _ v := match v with
    | .str s => .ok (.str s)
    | .int i => .ok (.str (toString i))
    | _ => convErr "str"

/-- A plain int field. -/
def intF : Field := .mk (.leaf intLeaf) {}

/-- `class Item(Model): qty = IntType(required=True); tag = StringType(serialized_name='label')` -/
def item : ClassDef where
  name := "Item"
  fields := [
    { name := "qty", field := .mk (.leaf intLeaf) { required := true } },
    { name := "tag", field := .mk (.leaf strLeaf) { serializedName := some "label" } }]

/-- A self-referencing class with a list of models, a dict, a default and roles. -/
def order : ClassDef where
  name := "Order"
  fields := [
    { name := "id", field := .mk (.leaf intLeaf) { required := true, deserializeFrom := ["ident"] } },
    { name := "items", field := .mk (.list (.mk (.model "Item") {}) (some 1) none) {} },
    { name := "prices", field := .mk (.dict intF (fun k => .ok k)) {} },
    { name := "note", field := .mk (.leaf strLeaf) { default := .str "-" } },
    { name := "parent", field := .mk (.model "Order") {} }]
  roles := [("public", Role.fn ⟨.white, ["id", "items", "qty"]⟩), ("default", Role.fn ⟨.black, ["note"]⟩)]

/-- The class table. -/
def env : Env where
  cls k := if k = "Item" then some item else if k = "Order" then some order else none
  isSub a b := a == b
  subs _ := []

theorem env_cls {k : String} {c : ClassDef} (h : env.cls k = some c) :
    (k = "Item" ∧ c = item) ∨ (k = "Order" ∧ c = order) := by
  simp only [env] at h
  split at h
  · injection h with h; exact Or.inl ⟨by assumption, h.symm⟩
  · split at h
    · injection h with h; exact Or.inr ⟨by assumption, h.symm⟩
    · cases h

/-- `{'ident': 7, 'items': [{'qty': 1, 'label': 'a'}, {'qty': 2}], 'prices': {'x': 3}, 'parent': {'id': 6}, 'zzz': 0}` -/
def good : Data :=
  [(.str "ident", .int 7),
   (.str "items", .list [.dict [(.str "qty", .int 1), (.str "label", .str "a")], .dict [(.str "qty", .int 2)]]),
   (.str "prices", .dict [(.str "x", .int 3)]),
   (.str "parent", .dict [(.str "id", .int 6)]),
   (.str "zzz", .int 0)]

/-- Input with failures at several depths. -/
def bad : Data :=
  [(.str "items", .list [.dict [(.str "qty", .int 1)], .dict [(.str "qty", .str "x")], .int 5]),
   (.str "prices", .dict [(.str "x", .int 3), (.str "y", .none), (.str "z", .str "q")]),
   (.str "parent", .dict [(.str "id", .str "6")]),
   (.str "zzz", .int 0)]

/-- The data imported from `good`. -/
def goodData : Data :=
  [(.str "id", .int 7),
   (.str "items", .list [
      .inst "Item" [(.str "qty", .int 1), (.str "tag", .str "a")],
      .inst "Item" [(.str "qty", .int 2), (.str "tag", .none)]]),
   (.str "prices", .dict [(.str "x", .int 3)]),
   (.str "note", .str "-"),
   (.str "parent", .inst "Order" [(.str "id", .int 6), (.str "items", .none), (.str "prices", .none),
      (.str "note", .str "-"), (.str "parent", .none)])]

/-- The context of `Model(raw)`: init, defaults, objects. -/
def ictx : Ctx := { init := true, defaults := true, oo := true }
/-- The context of `Model.validate`-style runs. -/
def vctx : Ctx := { conv := .val, init := true, defaults := true, oo := true, validate := true }

theorem import_good : runImport env 5 ictx order (.inst []) good = .ok goodData := by rfl
theorem validate_good : runValidate env 5 vctx order (.inst []) good = .ok goodData := by rfl
theorem import_bad : ∃ es p, runImport env 5 ictx order (.inst []) bad = .error (.data es p) := ⟨_, _, rfl⟩

theorem item_wf : item.WF := by unfold ClassDef.WF; decide
theorem order_wf : order.WF := by unfold ClassDef.WF; decide

theorem item_fields {P : FieldDef → Prop}
    (h1 : P { name := "qty", field := .mk (.leaf intLeaf) { required := true } })
    (h2 : P { name := "tag", field := .mk (.leaf strLeaf) { serializedName := some "label" } }) :
    ∀ fd ∈ item.fields, P fd := by
  intro fd h
  simp only [item, List.mem_cons, List.not_mem_nil, or_false] at h
  rcases h with rfl | rfl <;> assumption

theorem order_fields {P : FieldDef → Prop}
    (h1 : P { name := "id", field := .mk (.leaf intLeaf) { required := true, deserializeFrom := ["ident"] } })
    (h2 : P { name := "items", field := .mk (.list (.mk (.model "Item") {}) (some 1) none) {} })
    (h3 : P { name := "prices", field := .mk (.dict intF (fun k => .ok k)) {} })
    (h4 : P { name := "note", field := .mk (.leaf strLeaf) { default := .str "-" } })
    (h5 : P { name := "parent", field := .mk (.model "Order") {} }) :
    ∀ fd ∈ order.fields, P fd := by
  intro fd h
  simp only [order, List.mem_cons, List.not_mem_nil, or_false] at h
  rcases h with rfl | rfl | rfl | rfl | rfl <;> assumption

theorem env_classes {P : ClassDef → Prop} (h1 : P item) (h2 : P order) : ∀ k c, env.cls k = some c → P c := by
  intro k c h
  rcases env_cls h with ⟨_, rfl⟩ | ⟨_, rfl⟩ <;> assumption

theorem intLeaf_ok {app v w : Val} (h : intLeaf.toNative app v = .ok w) : ∃ i, w = .int i := by
  simp only [intLeaf] at h
  split at h
  · cases h; exact ⟨_, rfl⟩
  · cases h

theorem strLeaf_ok {app v w : Val} (h : strLeaf.toNative app v = .ok w) : ∃ s, w = .str s := by
  simp only [strLeaf] at h
  split at h
  · cases h; exact ⟨_, rfl⟩
  · cases h; exact ⟨_, rfl⟩
  · cases h

theorem intLeaf_err {app v : Val} {e : Exc} (h : intLeaf.toNative app v = .error e) : e = .field .conv ["int"] := by
  simp only [intLeaf] at h
  split at h
  · cases h
  · cases h; rfl

theorem strLeaf_err {app v : Val} {e : Exc} (h : strLeaf.toNative app v = .error e) : e = .field .conv ["str"] := by
  simp only [strLeaf] at h
  split at h
  · cases h
  · cases h
  · cases h; rfl

/-- Does the import end with an exception other than `DataError`? -/
def crashed : R Data → Bool
  | .ok _ => false
  | .error (.data _ _) => false
  | _ => true

theorem not_crashed {r : R Data} (h : crashed r = false) : ¬ Crashed r := by
  rintro ⟨e, rfl, he⟩
  cases e <;> simp [crashed] at h
  exact he _ _ rfl

theorem none_crashes {fds : List FieldDef} {f : FieldDef → R Data}
    (h : fds.all (fun fd => !crashed (f fd)) = true) : ∀ fd ∈ fds, fd.fset = none → ¬ Crashed (f fd) := by
  intro fd hfd _
  have := List.all_eq_true.1 h fd hfd
  exact not_crashed (by simpa using this)

end Verif.Samples
