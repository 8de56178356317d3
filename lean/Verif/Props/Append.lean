import Verif.Props.Meta

/-!
# C85: adding a field to an existing class, and type objects that are used twice
-/
namespace Verif.Lib.Meta

variable {τ σ ρ ν : Type}

/-! ## One step -/

/-- **C85, the class**: after `cls._append_field(name, type)` the class has that field under that name and otherwise the fields it had; a new name comes
last, a name the class had keeps its place; options and validators stay; every other class, also an existing subclass, stays as it is. -/
theorem C85_class (w : World τ σ ρ ν) (c : Nat) (cl : Class σ ρ ν) (hc : w.classes[c]? = some cl) (name : String) (f : FieldRef σ) :
    (∃ cl', (appendField w c name f).classes[c]? = some cl' ∧
      cl'.fields.get? name = some f ∧
      (∀ k, k ≠ name → cl'.fields.get? k = cl.fields.get? k) ∧
      cl'.fields.keys = (if name ∈ cl.fields.keys then cl.fields.keys else cl.fields.keys ++ [name]) ∧
      cl'.name = cl.name ∧ cl'.options = cl.options ∧ cl'.validators = cl.validators) ∧
    (appendField w c name f).classes.length = w.classes.length ∧
    ∀ c', c' ≠ c → (appendField w c name f).classes[c']? = w.classes[c']? := by
  refine ⟨⟨{ cl with fields := cl.fields.set name f }, ?_, ?_, ?_, ?_, rfl, rfl, rfl⟩, ?_, ?_⟩
  · rw [appendField_classes, if_pos rfl, hc]; rfl
  · simp
  · intro k hk; exact Dict.get?_set_ne _ _ (fun e => hk e.symm)
  · exact Dict.keys_set _ _ _
  · simp [appendField]
  · intro c' h; rw [appendField_classes, if_neg (fun e => h e.symm)]

/-- **C85, the type objects**: the type object of the new field gets the name and the class and, if it refers to a model by the name of the class, is resolved;
nothing else changes about it; its element types get the class, and are resolved in the same way; every other type object stays as it is. -/
theorem C85_objects (w : World τ σ ρ ν) (c : Nat) (cl : Class σ ρ ν) (hc : w.classes[c]? = some cl) (name : String) (f : FieldRef σ)
    (hb : Fresh w { fields := [(name, f)] }) :
    ∃ o, w.objs[f.obj]? = some o ∧
      (appendField w c name f).objs[f.obj]? = some
        { o with name := some name, owner := some c, target := if o.target.isNone && o.ref == some cl.name then some c else o.target } ∧
      ∀ j, j ≠ f.obj →
        (j ∈ o.inners → (appendField w c name f).objs[j]? = (w.objs[j]?).map fun e =>
          { e with name := none, owner := some c, target := if e.target.isNone && e.ref == some cl.name then some c else e.target }) ∧
        (j ∉ o.inners → (appendField w c name f).objs[j]? = w.objs[j]?) := by
  have hn : className w c = cl.name := by unfold className; rw [hc]
  obtain ⟨f1, f2, f3⟩ := fresh_one hb
  have ho : w.objs[f.obj]? = some w.objs[f.obj] := by simp [f1]
  have hi : innersOf w.objs f.obj = w.objs[f.obj].inners := by unfold innersOf; rw [ho]
  refine ⟨_, ho, ?_, ?_⟩
  · rw [appendField_objs w c name f f3, if_pos rfl, ho, hn]; rfl
  · intro j hj
    have hj' : ¬ f.obj = j := fun e => hj e.symm
    constructor
    · intro h; rw [appendField_objs w c name f f3, if_neg hj', hi, if_pos h, hn]; rfl
    · intro h; rw [appendField_objs w c name f f3, if_neg hj', hi, if_neg h]

theorem append_keeps (w : World τ σ ρ ν) (hg : Good w) (c : Nat) (name : String) (f : FieldRef σ) (hb : Fresh w { fields := [(name, f)] })
    (cl : Class σ ρ ν) (hc : cl ∈ w.classes) (kf : String × FieldRef σ) (hkf : kf ∈ cl.fields) :
    (appendField w c name f).objs[kf.2.obj]? = w.objs[kf.2.obj]? := by
  obtain ⟨f1, f2, f3⟩ := fresh_one hb
  rw [appendField_objs w c name f f3, if_neg (fun e => f2 cl hc kf hkf e.symm), if_neg]
  intro h
  obtain ⟨o, ho, h⟩ := innersOf_mem h
  exact hg.noInner cl hc kf hkf o ho h

/-- **C85, later subclasses**: a class defined later with this class as its first base has the added field, unless its body redefines the name. -/
theorem C85_later_subclass (w : World τ σ ρ ν) (hg : Good w) (c : Nat) (cl : Class σ ρ ν) (hc : w.classes[c]? = some cl) (name : String) (f : FieldRef σ)
    (hb : Fresh w { fields := [(name, f)] }) (sub : String) (bases : List Nat) (body : Body σ ρ ν) (hbody : Fresh (appendField w c name f) body)
    (hname : body.fields.get? name = none) :
    ((newClass (appendField w c name f) sub (c :: bases) body).fields.get? name).bind (look (define (appendField w c name f) sub (c :: bases) body).objs) =
      look w.objs f := by
  rw [C71_fields _ (good_append w hg c name f hb) sub (c :: bases) body hbody name, hname]
  have hl : leftmost (appendField w c name f) (c :: bases) name = some f := by
    show (match ((appendField w c name f).classes[c]?).bind fun c => c.fields.get? name with
      | some f => some f
      | none => leftmost (appendField w c name f) bases name) = _
    rw [appendField_classes, if_pos rfl, hc]
    simp
  rw [hl]
  show look (appendField w c name f).objs f = _
  apply look_same
  obtain ⟨o, h1, h2, -⟩ := C85_objects w c cl hc name f hb
  rw [h1, h2]; rfl

/-! ## Histories -/

/-- **C85, names and owners**: in every state a program reaches by creating types, defining classes and adding fields, where no type object is used twice, the
type object of every field of every class has the name of the field and belongs to the class. -/
theorem C85_own_names {w : World τ σ ρ ν} (h : Reach w) (c : Nat) (cl : Class σ ρ ν) (hc : w.classes[c]? = some cl) (k : String) (f : FieldRef σ) (hf : cl.fields.get? k = some f) :
    ∃ o, w.objs[f.obj]? = some o ∧ o.name = some k ∧ o.owner = some c := by
  induction h generalizing c cl k f with
  | start => simp at hc
  | @alloc w o h ht hin ih =>
    obtain ⟨o', h1, h2⟩ := ih c cl hc k f hf
    exact ⟨o', by rw [List.getElem?_append_left (List.getElem?_eq_some_iff.1 h1).1]; exact h1, h2⟩
  | @define w name bases body h hb ih =>
    have hg := good_of_reach h
    rcases Nat.lt_trichotomy c w.classes.length with hlt | rfl | hgt
    · rw [C72_schemas w name bases body c hlt] at hc
      obtain ⟨o, h1, h2⟩ := ih c cl hc k f hf
      exact ⟨o, by rw [C72_fields w hg name bases body hb cl (List.mem_of_getElem? hc) (k, f) (Dict.mem_of_get? hf)]; exact h1, h2⟩
    · rw [define_classes, List.getElem?_append_right (Nat.le_refl _), Nat.sub_self] at hc
      cases hc
      exact C71_owner w hg name bases body hb k f hf
    · rw [define_classes, List.getElem?_eq_none (by simp; omega)] at hc; cases hc
  | @append w c' name f' h hc0 hb ih =>
    have hg := good_of_reach h
    rw [appendField_classes] at hc
    by_cases e : c' = c
    · subst e
      rw [if_pos rfl] at hc
      cases hc' : w.classes[c']? with
      | none => rw [hc'] at hc; cases hc
      | some cl' =>
        rw [hc'] at hc; cases hc
        rw [Dict.get?_set] at hf
        by_cases e : name = k
        · subst e
          simp only [if_true, Option.some.injEq] at hf
          subst hf
          obtain ⟨o, -, h2, -⟩ := C85_objects w c' cl' hc' name f' hb
          exact ⟨_, h2, rfl, rfl⟩
        · rw [if_neg (by simpa using e)] at hf
          obtain ⟨o, h1, h2⟩ := ih c' cl' hc' k f hf
          exact ⟨o, by rw [append_keeps w hg c' name f' hb cl' (List.mem_of_getElem? hc') (k, f) (Dict.mem_of_get? hf)]; exact h1, h2⟩
    · rw [if_neg e] at hc
      obtain ⟨o, h1, h2⟩ := ih c cl hc k f hf
      exact ⟨o, by rw [append_keeps w hg c' name f' hb cl (List.mem_of_getElem? hc) (k, f) (Dict.mem_of_get? hf)]; exact h1, h2⟩

/-- **C85, input keys**: so every field is read from its own name first and then from the keys given to its constructor. -/
theorem C85_input_keys {w : World τ σ ρ ν} (h : Reach w) (c : Nat) (cl : Class σ ρ ν) (hc : w.classes[c]? = some cl) (k : String) (f : FieldRef σ)
    (hf : cl.fields.get? k = some f) (given : τ → List String) :
    ∃ o, w.objs[f.obj]? = some o ∧ inputKeys given w.objs f = some k :: (given o.spec).map some := by
  obtain ⟨o, h1, h2, -⟩ := C85_own_names h c cl hc k f hf
  exact ⟨o, h1, by unfold inputKeys; rw [h1]; simp [h2]⟩

/-- Histories that continue a history, with the fields that were added, oldest first: class, name, field. -/
inductive Adding : World τ σ ρ ν → List (Nat × String × FieldRef σ) → World τ σ ρ ν → Prop
  | refl (w : World τ σ ρ ν) : Adding w [] w
  | alloc {w w' : World τ σ ρ ν} {t : List (Nat × String × FieldRef σ)} (o : TypeObj τ) (h : Adding w t w') (ht : o.target = none)
      (hin : ∀ j ∈ o.inners, j < w'.objs.length ∧ ∀ c ∈ w'.classes, ∀ kf ∈ c.fields, kf.2.obj ≠ j) : Adding w t { w' with objs := w'.objs ++ [o] }
  | define {w w' : World τ σ ρ ν} {t : List (Nat × String × FieldRef σ)} (name : String) (bases : List Nat) (body : Body σ ρ ν) (h : Adding w t w') (hb : Fresh w' body) :
      Adding w t (define w' name bases body)
  | append {w w' : World τ σ ρ ν} {t : List (Nat × String × FieldRef σ)} (c : Nat) (name : String) (f : FieldRef σ) (h : Adding w t w') (hc : c < w'.classes.length)
      (hb : Fresh w' { fields := [(name, f)] }) : Adding w (t ++ [(c, name, f)]) (appendField w' c name f)

/-- The fields added to one class. -/
def addedTo (c : Nat) (t : List (Nat × String × FieldRef σ)) : Dict String (FieldRef σ) := (t.filter fun e => e.1 == c).map Prod.snd

theorem addedTo_append (c : Nat) (t u : List (Nat × String × FieldRef σ)) : addedTo c (t ++ u) = addedTo c t ++ addedTo c u := by simp [addedTo]

/-- **C85, histories**: whatever is defined and added later, the field table of an existing class consists of the fields it had, updated with the fields added to
this class, in the order in which they were added; fields added to other classes (also to its base classes) do not appear in it. -/
theorem C85_history {w w' : World τ σ ρ ν} {t : List (Nat × String × FieldRef σ)} (h : Adding w t w') (c : Nat) (cl : Class σ ρ ν) (hc : w.classes[c]? = some cl) :
    w'.classes[c]? = some { cl with fields := cl.fields.update (addedTo c t) } := by
  induction h with
  | refl => simpa [addedTo] using hc
  | alloc o h ht hin ih => exact ih
  | define name bases body h hb ih => rw [C72_schemas _ _ _ _ _ (List.getElem?_eq_some_iff.1 ih).1, ih]
  | append c' name f h hc0 hb ih =>
    rw [appendField_classes, ih, addedTo_append]
    by_cases e : c' = c
    · rw [if_pos e]
      simp [addedTo, e, Dict.update]
    · rw [if_neg e]
      simp [addedTo, e]

theorem reach_adding {w w' : World τ σ ρ ν} {t : List (Nat × String × FieldRef σ)} (hr : Reach w) (h : Adding w t w') : Reach w' := by
  induction h with
  | refl => exact hr
  | alloc o h ht hin ih => exact .alloc o ih ht hin
  | define name bases body h hb ih => exact .define name bases body ih hb
  | append c name f h hc hb ih => exact .append c name f ih hc hb

/-! ## Type objects used twice -/

theorem setup_name (objs : List (TypeObj τ)) (name : String) (owner : Nat) (on : String) (i j : Nat) (hj : ∀ o ∈ objs, j ∉ o.inners) :
    ((setup objs name owner on i)[j]? = if i = j then (objs[j]?).map fun o => o.setUp (some name) owner on else objs[j]?) ∧
    ∀ o ∈ setup objs name owner on i, j ∉ o.inners := by
  have e : setup objs name owner on i = setupObj (some name) owner on ((innersOf objs i).foldl (setupObj none owner on) objs) i := rfl
  have hj' : ∀ k, j ∉ innersOf objs k := fun k h => by
    obtain ⟨o, ho, h⟩ := innersOf_mem h
    exact hj o ho h
  have hg : ∀ k, (setup objs name owner on i)[k]? = if i = k then (((innersOf objs i).foldl (setupObj none owner on) objs)[k]?).map fun o => o.setUp (some name) owner on
      else ((innersOf objs i).foldl (setupObj none owner on) objs)[k]? := fun k => by rw [e, setupObj_get]
  constructor
  · rw [hg, inners_get, if_neg (hj' i)]
  · intro o ho
    obtain ⟨k, hk⟩ := List.getElem?_of_mem ho
    rw [hg, inners_get] at hk
    cases hok : objs[k]? with
    | none => rw [hok] at hk; simp at hk
    | some o' =>
      rw [hok] at hk
      have := hj o' (List.mem_of_getElem? hok)
      split at hk <;> split at hk <;> (cases hk; exact this)

theorem setupAll_name (owner : Nat) (on : String) (j : Nat) (fs : Dict String (FieldRef σ)) (objs : List (TypeObj τ)) (hj : ∀ o ∈ objs, j ∉ o.inners) :
    ((∀ kf ∈ fs, kf.2.obj ≠ j) → (setupAll owner on objs fs)[j]? = objs[j]?) ∧
    ∀ pre post k f, fs = pre ++ (k, f) :: post → f.obj = j → (∀ kf ∈ post, kf.2.obj ≠ j) →
      (setupAll owner on objs fs)[j]? = (objs[j]?).map fun o => o.setUp (some k) owner on := by
  induction fs generalizing objs with
  | nil => exact ⟨fun _ => rfl, fun pre post k f h => by simp at h⟩
  | cons kf r ih =>
    obtain ⟨k0, f0⟩ := kf
    obtain ⟨s1, s2⟩ := setup_name objs k0 owner on f0.obj j hj
    obtain ⟨i1, i2⟩ := ih _ s2
    unfold setupAll
    constructor
    · intro h
      rw [i1 (fun kf hkf => h kf (by simp [hkf])), s1, if_neg (h (k0, f0) (by simp))]
    · intro pre post k f h1 h2 h3
      cases pre with
      | nil =>
        cases h1
        rw [i1 h3, s1, if_pos h2]
      | cons p pre =>
        rw [List.cons_append] at h1
        cases h1
        rw [i2 pre post k f rfl h2 h3, s1]
        split
        · cases objs[j]? <;> simp [setUp_setUp]
        · rfl

/-- **C85, a type object used twice in a class**: a type object that is the value of several attributes of a class answers to the name of the last of these
fields in the order of the class, so all of them are read from that one key, and none of the others is read from its own name. -/
theorem C85_shared (w : World τ σ ρ ν) (name : String) (bases : List Nat) (body : Body σ ρ ν) (j : Nat) (o : TypeObj τ)
    (hin : ∀ o ∈ (collect w bases body).1, j ∉ o.inners) (ho : (collect w bases body).1[j]? = some o)
    (pre post : Dict String (FieldRef σ)) (k : String) (f : FieldRef σ) (hf : (newClass w name bases body).fields = pre ++ (k, f) :: post) (hj : f.obj = j)
    (hlast : ∀ kf ∈ post, kf.2.obj ≠ j) (given : τ → List String) :
    ∀ kf ∈ (newClass w name bases body).fields, kf.2.obj = j → inputKeys given (define w name bases body).objs kf.2 = some k :: (given o.spec).map some := by
  intro kf hkf hkj
  have := (setupAll_name w.classes.length name j (collect w bases body).2 (collect w bases body).1 hin).2 pre post k f hf hj hlast
  have h2 : (define w name bases body).objs[kf.2.obj]? = some (o.setUp (some k) w.classes.length name) := by
    rw [hkj]
    show (setupAll w.classes.length name (collect w bases body).1 (collect w bases body).2)[j]? = _
    rw [this, ho]; rfl
  unfold inputKeys
  rw [h2]; rfl

/-- **C85, a type object that is already a field**: adding it again, to any class and under any name, makes every field that uses it, of whatever class, answer to
the new name. -/
theorem C85_shared_append (w : World τ σ ρ ν) (c : Nat) (name : String) (f : FieldRef σ) (o : TypeObj τ) (hn : ∀ o ∈ w.objs, f.obj ∉ o.inners)
    (ho : w.objs[f.obj]? = some o) (f' : FieldRef σ) (hf : f'.obj = f.obj) (given : τ → List String) :
    inputKeys given (appendField w c name f).objs f' = some name :: (given o.spec).map some := by
  unfold inputKeys
  rw [hf, appendField_objs w c name f hn, if_pos rfl, ho]; rfl

/-! ## The hypotheses are met -/

theorem fresh_more : Fresh sampleB { fields := [("more", { obj := 2 })] } :=
  ⟨by simp [Dict.Nodup], by simp [Dict.Nodup], by simp, by decide, by decide, by decide⟩

theorem reach_sampleB : Reach sampleB := .define _ _ _ (.define _ _ _ reach_sample0 fresh_sampleA) fresh_sampleB

/-- A field `more` added to `A`, when `B(A)` exists. -/
def sampleMore : World String String String String := appendField sampleB 0 "more" { obj := 2 }

example : Reach sampleMore := .append _ _ _ reach_sampleB (by decide) fresh_more
example : Adding sampleB [(0, "more", { obj := 2 })] sampleMore := .append (t := []) 0 "more" { obj := 2 } (.refl _) (by decide) fresh_more
example : (sampleMore.classes[0]?).map (fun c => c.fields.keys) = some ["tags", "more"] ∧ (sampleMore.classes[1]?).map (fun c => c.fields.keys) = some ["tags"] := by decide
example : inputKeys (fun _ => ["x"]) sampleMore.objs ({ obj := 2 } : FieldRef String) = [some "more", some "x"] :=
  (C85_input_keys (.append _ _ _ reach_sampleB (by decide) fresh_more) 0 _ rfl "more" { obj := 2 } rfl (fun _ => ["x"])).elim fun _ h => h.2
example : ((newClass sampleMore "C" [0] {}).fields.get? "more").bind (look (define sampleMore "C" [0] {}).objs) = some ("int", 2, none, [], none) :=
  C85_later_subclass sampleB (good_of_reach reach_sampleB) 0 _ rfl "more" { obj := 2 } fresh_more "C" [] {} ⟨by simp [Dict.Nodup], by simp [Dict.Nodup], by simp, by simp, by simp, by simp⟩ rfl

/-- `class M(Model): a = b = IntType()`. -/
def sampleTwice : World String String String String := define sample0 "M" [] { fields := [("a", { obj := 2 }), ("b", { obj := 2 })] }

/-- The field `a` of this class is read from the key `b`. -/
theorem C85_counterexample_shared :
    (sampleTwice.classes[0]?).map (fun c => c.fields.map fun kf => (kf.1, inputKeys (fun _ => []) sampleTwice.objs kf.2)) =
      some [("a", [some "b"]), ("b", [some "b"])] := by decide

example : inputKeys (fun _ => []) sampleTwice.objs ({ obj := 2 } : FieldRef String) = [some "b"] :=
  C85_shared sample0 "M" [] { fields := [("a", { obj := 2 }), ("b", { obj := 2 })] } 2 { spec := "int", hint := 2 } (by decide) rfl [("a", { obj := 2 })] [] "b" { obj := 2 } (by rfl) rfl (by simp)
    (fun _ => []) ("a", { obj := 2 }) (Dict.mem_of_get? (by rfl)) rfl

end Verif.Lib.Meta
