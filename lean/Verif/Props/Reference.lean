import Verif.Props.Append

/-!
# C86: models that are referred to by name (`ModelType('Node')`)
-/
namespace Verif.Lib.Meta

variable {τ σ ρ ν : Type}

/-! ## Class definitions -/

theorem collect_get (w : World τ σ ρ ν) (hg : Good w) (bases : List Nat) (body : Body σ ρ ν) (hb : Fresh w body) (k : String) (f : FieldRef σ) (o : TypeObj τ)
    (hs : (body.fields.get? k).or (leftmost w bases k) = some f) (ho : w.objs[f.obj]? = some o) :
    ∃ g, (collect w bases body).2.get? k = some g ∧ (collect w bases body).1[g.obj]? = some o := by
  obtain ⟨-, -, -, -, -, c6⟩ := collect_spec w hg bases body hb
  have h := c6 k
  rw [hs] at h
  simp only [Option.bind_some, whole, ho] at h
  cases hk : (collect w bases body).2.get? k with
  | none => rw [hk] at h; cases h
  | some g =>
    refine ⟨g, rfl, ?_⟩
    rw [hk] at h
    simp only [Option.bind_some, whole] at h
    cases hg' : (collect w bases body).1[g.obj]? with
    | none => rw [hg'] at h; cases h
    | some o' => rw [hg'] at h; simp only [Option.some.injEq, Prod.mk.injEq] at h; rw [h.1]

/-- **C86, fields**: let `o` be the type object that the body of a new class, or else the leftmost base that has the name, gives for the field `k`. The type object of
the field of the new class refers to the same name as `o`; if `o` was resolved it refers to the same class, also when it was inherited (a subclass of `Node`
keeps `Node` as the model of its children); if it was not, it refers to the new class if this has the name, and otherwise stays unresolved. -/
theorem C86_field (w : World τ σ ρ ν) (hg : Good w) (name : String) (bases : List Nat) (body : Body σ ρ ν) (hb : Fresh w body) (k : String) (f : FieldRef σ) (o : TypeObj τ)
    (hs : (body.fields.get? k).or (leftmost w bases k) = some f) (ho : w.objs[f.obj]? = some o) :
    ∃ g o', (newClass w name bases body).fields.get? k = some g ∧ (define w name bases body).objs[g.obj]? = some o' ∧ o'.ref = o.ref ∧
      (∀ c, o.target = some c → o'.target = some c) ∧
      (o.target = none → o.ref = some name → o'.target = some w.classes.length) ∧
      (o.target = none → o.ref ≠ some name → o'.target = none) := by
  obtain ⟨g, h1, h2⟩ := collect_get w hg bases body hb k f o hs ho
  obtain ⟨-, -, -, c4, -, -⟩ := collect_spec w hg bases body hb
  have h3 := (setupAll_get w.classes.length name (collect w bases body).2 (collect w bases body).1 (collect_noInnersOf w hg bases body hb) c4 g.obj).1 k g (Dict.mem_of_get? h1) rfl
  rw [h2] at h3
  refine ⟨g, _, h1, h3, rfl, ?_, ?_, ?_⟩
  · intro c hc; simp [TypeObj.setUp, hc]
  · intro ht hr; simp [TypeObj.setUp, ht, hr]
  · intro ht hr; simp [TypeObj.setUp, ht, hr]

/-- **C86, element types**: an element type of such a field is shared by the classes that have the field; the first class with the right name resolves it, for
all of them. -/
theorem C86_element (w : World τ σ ρ ν) (hg : Good w) (name : String) (bases : List Nat) (body : Body σ ρ ν) (hb : Fresh w body) (k : String) (f : FieldRef σ) (o : TypeObj τ)
    (hs : (body.fields.get? k).or (leftmost w bases k) = some f) (ho : w.objs[f.obj]? = some o) (j : Nat) (hj : j ∈ o.inners) (e : TypeObj τ) (he : w.objs[j]? = some e) :
    ∃ e', (define w name bases body).objs[j]? = some e' ∧ e'.ref = e.ref ∧
      (∀ c, e.target = some c → e'.target = some c) ∧
      (e.target = none → e.ref = some name → e'.target = some w.classes.length) ∧
      (e.target = none → e.ref ≠ some name → e'.target = none) := by
  obtain ⟨g, h1, h2⟩ := collect_get w hg bases body hb k f o hs ho
  obtain ⟨⟨x, hx, -⟩, -, -, c4, -, -⟩ := collect_spec w hg bases body hb
  have hni := collect_noInnersOf w hg bases body hb
  have hjg : j ∈ innersOf (collect w bases body).1 g.obj := by unfold innersOf; rw [h2]; exact hj
  have hm := Dict.mem_of_get? h1
  have h3 := (setupAll_get w.classes.length name (collect w bases body).2 (collect w bases body).1 hni c4 j).2.1
    (fun kf hkf e => hni kf hkf (k, g) hm (by rw [e]; exact hjg)) ⟨(k, g), hm, hjg⟩
  have hlt : j < w.objs.length := (List.getElem?_eq_some_iff.1 he).1
  rw [hx, List.getElem?_append_left hlt, he, ← hx] at h3
  refine ⟨_, h3, rfl, ?_, ?_, ?_⟩
  · intro c hc; simp [TypeObj.setUp, hc]
  · intro ht hr; simp [TypeObj.setUp, ht, hr]
  · intro ht hr; simp [TypeObj.setUp, ht, hr]

/-! ## Histories -/

theorem define_get (w : World τ σ ρ ν) (hg : Good w) (name : String) (bases : List Nat) (body : Body σ ρ ν) (hb : Fresh w body) (j : Nat) :
    ∃ n, (define w name bases body).objs[j]? = (collect w bases body).1[j]? ∨
      (define w name bases body).objs[j]? = ((collect w bases body).1[j]?).map fun o => o.setUp n w.classes.length name := by
  obtain ⟨-, -, -, c4, -, -⟩ := collect_spec w hg bases body hb
  obtain ⟨h1, h2, h3⟩ := setupAll_get w.classes.length name (collect w bases body).2 (collect w bases body).1 (collect_noInnersOf w hg bases body hb) c4 j
  by_cases ha : ∃ kf ∈ (collect w bases body).2, kf.2.obj = j
  · obtain ⟨⟨k, f⟩, hkf, e⟩ := ha
    exact ⟨some k, .inr (h1 k f hkf e)⟩
  · have ha' : ∀ kf ∈ (collect w bases body).2, kf.2.obj ≠ j := fun kf hkf e => ha ⟨kf, hkf, e⟩
    by_cases hb : ∃ kf ∈ (collect w bases body).2, j ∈ innersOf (collect w bases body).1 kf.2.obj
    · exact ⟨none, .inr (h2 ha' hb)⟩
    · exact ⟨none, .inl (h3 ha' (fun kf hkf h => hb ⟨kf, hkf, h⟩))⟩

theorem append_get (w : World τ σ ρ ν) (c : Nat) (name : String) (f : FieldRef σ) (hb : Fresh w { fields := [(name, f)] }) (j : Nat) :
    ∃ n, (appendField w c name f).objs[j]? = w.objs[j]? ∨
      (appendField w c name f).objs[j]? = (w.objs[j]?).map fun o => o.setUp n c (className w c) := by
  obtain ⟨f1, f2, f3⟩ := fresh_one hb
  have h := appendField_objs w c name f f3 j
  by_cases h1 : f.obj = j
  · rw [if_pos h1] at h; exact ⟨some name, .inr h⟩
  · rw [if_neg h1] at h
    by_cases h2 : j ∈ innersOf w.objs f.obj
    · rw [if_pos h2] at h; exact ⟨none, .inr h⟩
    · rw [if_neg h2] at h; exact ⟨none, .inl h⟩

theorem setUp_target (o : TypeObj τ) (n : Option String) (c : Nat) (on : String) (t : Nat) (h : o.target = some t) : (o.setUp n c on).target = some t := by
  simp [TypeObj.setUp, h]

/-- **C86, once**: a reference that is resolved refers to the same class in every continuation of the history. -/
theorem C86_once {w w' : World τ σ ρ ν} {t : List (Nat × String × FieldRef σ)} (hr : Reach w) (h : Adding w t w') (j : Nat) (o : TypeObj τ) (ho : w.objs[j]? = some o) (c : Nat)
    (hc : o.target = some c) : ∃ o', w'.objs[j]? = some o' ∧ o'.ref = o.ref ∧ o'.target = some c := by
  induction h with
  | refl => exact ⟨o, ho, rfl, hc⟩
  | alloc a h ht hin ih =>
    obtain ⟨o', h1, h2⟩ := ih
    exact ⟨o', by rw [List.getElem?_append_left (List.getElem?_eq_some_iff.1 h1).1]; exact h1, h2⟩
  | define name bases body h hb ih =>
    obtain ⟨o', h1, h2, h3⟩ := ih
    have hg := good_of_reach (reach_adding hr h)
    obtain ⟨⟨x, hx, -⟩, -⟩ := collect_spec _ hg bases body hb
    obtain ⟨n, e | e⟩ := define_get _ hg name bases body hb j
    · rw [hx, List.getElem?_append_left (List.getElem?_eq_some_iff.1 h1).1, h1] at e
      exact ⟨o', e, h2, h3⟩
    · rw [hx, List.getElem?_append_left (List.getElem?_eq_some_iff.1 h1).1, h1] at e
      exact ⟨_, e, h2, setUp_target _ _ _ _ _ h3⟩
  | append c' name f h hc0 hb ih =>
    obtain ⟨o', h1, h2, h3⟩ := ih
    obtain ⟨n, e | e⟩ := append_get _ c' name f hb j
    · rw [h1] at e; exact ⟨o', e, h2, h3⟩
    · rw [h1] at e; exact ⟨_, e, h2, setUp_target _ _ _ _ _ h3⟩

theorem setUp_target_of (o : TypeObj τ) (n : Option String) (c : Nat) (on : String) (t : Nat) (h : (o.setUp n c on).target = some t) :
    o.target = some t ∨ t = c ∧ o.ref = some on := by
  unfold TypeObj.setUp at h
  simp only [] at h
  by_cases hc : (o.target.isNone && o.ref == some on) = true
  · rw [if_pos hc] at h
    cases h
    simp only [Bool.and_eq_true, beq_iff_eq] at hc
    exact .inr ⟨rfl, hc.2⟩
  · rw [if_neg hc] at h; exact .inl h

/-- **C86, by name**: whatever a program does, a resolved reference refers to a class that has the given name. -/
theorem C86_by_name {w : World τ σ ρ ν} (h : Reach w) (o : TypeObj τ) (ho : o ∈ w.objs) (c : Nat) (hc : o.target = some c) :
    ∃ cl, w.classes[c]? = some cl ∧ o.ref = some cl.name := by
  induction h generalizing o c with
  | start => cases ho
  | alloc a h ht hin ih =>
    rcases List.mem_append.1 ho with h1 | h1
    · exact ih o h1 c hc
    · rw [List.mem_singleton] at h1; subst h1; rw [ht] at hc; cases hc
  | @define w name bases body h hb ih =>
    have hg := good_of_reach h
    obtain ⟨⟨x, hx, hxo⟩, -⟩ := collect_spec _ hg bases body hb
    have hold : ∀ o' ∈ (collect w bases body).1, o' ∈ w.objs := by
      intro o' h'
      rw [hx] at h'
      rcases List.mem_append.1 h' with h1 | h1
      · exact h1
      · exact hxo o' h1
    have keep : ∀ (c : Nat) (cl : Class σ ρ ν), w.classes[c]? = some cl → (define w name bases body).classes[c]? = some cl := by
      intro c cl h1
      rw [C72_schemas _ _ _ _ _ (List.getElem?_eq_some_iff.1 h1).1, h1]
    obtain ⟨j, hj⟩ := List.getElem?_of_mem ho
    obtain ⟨n, e | e⟩ := define_get _ hg name bases body hb j
    · rw [hj] at e
      obtain ⟨cl, h1, h2⟩ := ih o (hold o (List.mem_of_getElem? e.symm)) c hc
      exact ⟨cl, keep c cl h1, h2⟩
    · rw [hj] at e
      cases ho' : (collect w bases body).1[j]? with
      | none => rw [ho'] at e; cases e
      | some o' =>
        rw [ho'] at e; cases e
        rcases setUp_target_of _ _ _ _ _ hc with h1 | ⟨rfl, h1⟩
        · obtain ⟨cl, h2, h3⟩ := ih o' (hold o' (List.mem_of_getElem? ho')) c h1
          exact ⟨cl, keep c cl h2, h3⟩
        · refine ⟨newClass w name bases body, ?_, h1⟩
          rw [define_classes, List.getElem?_append_right (Nat.le_refl _), Nat.sub_self]; rfl
  | @append w c' name f h hc0 hb ih =>
    have keep : ∀ (c : Nat) (cl : Class σ ρ ν), w.classes[c]? = some cl → ∃ cl', (appendField w c' name f).classes[c]? = some cl' ∧ cl'.name = cl.name := by
      intro c cl h1
      rw [appendField_classes]
      by_cases e : c' = c
      · rw [if_pos e, h1]; exact ⟨_, rfl, rfl⟩
      · rw [if_neg e, h1]; exact ⟨_, rfl, rfl⟩
    have old : ∀ o' ∈ w.objs, o'.target = some c → ∃ cl, (appendField w c' name f).classes[c]? = some cl ∧ o'.ref = some cl.name := by
      intro o' h1 h2
      obtain ⟨cl, h3, h4⟩ := ih o' h1 c h2
      obtain ⟨cl', h5, h6⟩ := keep c cl h3
      exact ⟨cl', h5, by rw [h4, h6]⟩
    obtain ⟨j, hj⟩ := List.getElem?_of_mem ho
    obtain ⟨n, e | e⟩ := append_get _ c' name f hb j
    · rw [hj] at e; exact old o (List.mem_of_getElem? e.symm) hc
    · rw [hj] at e
      cases ho' : w.objs[j]? with
      | none => rw [ho'] at e; cases e
      | some o' =>
        rw [ho'] at e; cases e
        rcases setUp_target_of _ _ _ _ _ hc with h1 | ⟨rfl, h1⟩
        · exact old o' (List.mem_of_getElem? ho') h1
        · cases hcl : w.classes[c]? with
          | some cl =>
            obtain ⟨cl', h5, h6⟩ := keep c cl hcl
            refine ⟨cl', h5, ?_⟩
            show o'.ref = _
            rw [h1, h6]; unfold className; rw [hcl]
          | none => rw [List.getElem?_eq_none_iff] at hcl; omega

/-! ## The hypotheses are met -/

/-- Type objects: 0 `ModelType('Node')`, 1 another one, 2 `ListType` of 1. -/
def nodeObjs : List (TypeObj String) :=
  [{ spec := "model", hint := 0, ref := some "Node" }, { spec := "model", hint := 1, ref := some "Node" }, { spec := "list", hint := 2, inners := [1] }]

def node0 : World String String String String := { objs := nodeObjs }

theorem reach_node0 : Reach node0 :=
  .alloc (w := { objs := nodeObjs.take 2 }) { spec := "list", hint := 2, inners := [1] }
    (.alloc (w := { objs := nodeObjs.take 1 }) { spec := "model", hint := 1, ref := some "Node" }
      (.alloc (w := {}) { spec := "model", hint := 0, ref := some "Node" } .start rfl (by simp)) rfl (by simp)) rfl (by simp [nodeObjs])

/-- The attributes `next = ModelType('Node')` and `children = ListType(ModelType('Node'))`. -/
def nodeBody : Body String String String := { fields := [("next", { obj := 0 }), ("children", { obj := 2 })] }

theorem fresh_node : Fresh node0 nodeBody :=
  ⟨by simp [Dict.Nodup, nodeBody], by simp [Dict.Nodup, nodeBody], by simp [nodeBody], by simp [nodeBody, node0, nodeObjs], by simp [node0], by simp [nodeBody, node0, nodeObjs]⟩

/-- `class Node(Model)` with this body, and `class Leaf(Node)`. -/
def nodeA : World String String String String := define (define node0 "Node" [] nodeBody) "Leaf" [0] {}

/-- What the fields of a class refer to: the field's own type object, then its element types. -/
def refsOf (w : World String String String String) (c : Nat) : Option (List (String × List (Option Nat))) :=
  (w.classes[c]?).map fun cl => cl.fields.map fun kf => (kf.1, match w.objs[kf.2.obj]? with
    | some o => (o.target) :: o.inners.map fun i => (w.objs[i]?).bind fun e => e.target
    | none => [])

example : refsOf nodeA 0 = some [("next", [some 0]), ("children", [none, some 0])] := by decide
/-- The subclass refers to its base class. -/
theorem C86_subclass_keeps_base : refsOf nodeA 1 = some [("next", [some 0]), ("children", [none, some 0])] := by decide

/-- `class Mixin(Model)` with this body, then two classes called `Node` that inherit from it. -/
def nodeMixin : World String String String String := define (define (define node0 "Mixin" [] nodeBody) "Node" [0] {}) "Node" [0] {}

/-- Each of them is the model of its own `next`, but the element type is shared: the children of the second one, and those of the mixin, are of the first. -/
theorem C86_counterexample_shared : refsOf nodeMixin 0 = some [("next", [none]), ("children", [none, some 1])] ∧
    refsOf nodeMixin 1 = some [("next", [some 1]), ("children", [none, some 1])] ∧
    refsOf nodeMixin 2 = some [("next", [some 2]), ("children", [none, some 1])] := by decide

example : ∃ g o', (newClass node0 "Node" [] nodeBody).fields.get? "next" = some g ∧ (define node0 "Node" [] nodeBody).objs[g.obj]? = some o' ∧ o'.target = some 0 := by
  obtain ⟨g, o', h1, h2, -, -, h3, -⟩ := C86_field node0 (good_of_reach reach_node0) "Node" [] nodeBody fresh_node "next" { obj := 0 } _ rfl rfl
  exact ⟨g, o', h1, h2, h3 rfl rfl⟩

example : ∃ e', (define node0 "Node" [] nodeBody).objs[1]? = some e' ∧ e'.target = some 0 := by
  obtain ⟨e', h1, -, -, h3, -⟩ := C86_element node0 (good_of_reach reach_node0) "Node" [] nodeBody fresh_node "children" { obj := 2 } _ rfl rfl 1 (by simp) _ rfl
  exact ⟨e', h1, h3 rfl rfl⟩

theorem reach_node : Reach (define node0 "Node" [] nodeBody) := .define _ _ _ reach_node0 fresh_node

example : Adding (define node0 "Node" [] nodeBody) [] nodeA :=
  .define _ _ _ (.refl _) ⟨by simp [Dict.Nodup], by simp [Dict.Nodup], by simp, by simp, by simp, by simp⟩

end Verif.Lib.Meta
