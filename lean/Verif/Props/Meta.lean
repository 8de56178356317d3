import Verif.Lib.Meta
import Mathlib.Tactic.Common

/-!
# C71, C72: class definitions and inheritance
-/
namespace Verif.Lib.Meta

variable {τ σ ρ ν : Type}

/-- What a field is, apart from the class it belongs to: everything given to its constructor, its creation order, its export level, its element
types and, for a calculated field, its functions. -/
def look (objs : List (TypeObj τ)) (f : FieldRef σ) : Option (τ × Nat × Option Nat × List Nat × Option σ) :=
  match objs[f.obj]? with
  | some o => some (o.spec, o.hint, o.level, o.inners, f.fget)
  | none => none

/-- The definition a name has in the first of the given classes that has one. -/
def leftmost (w : World τ σ ρ ν) : List Nat → String → Option (FieldRef σ)
  | [], _ => none
  | b :: r, k =>
    match (w.classes[b]?).bind fun c => c.fields.get? k with
    | some f => some f
    | none => leftmost w r k

/-- The same for model-level validators. -/
def leftmostValidator (w : World τ σ ρ ν) : List Nat → String → Option ν
  | [], _ => none
  | b :: r, k =>
    match (w.classes[b]?).bind fun c => c.validators.get? k with
    | some f => some f
    | none => leftmostValidator w r k

/-- A world as it arises from class statements: field names are unique, objects exist, and the type object of a field is never at the same time the
element type of another one. -/
structure Good (w : World τ σ ρ ν) : Prop where
  nodup : ∀ c ∈ w.classes, c.fields.Nodup
  nodupV : ∀ c ∈ w.classes, c.validators.Nodup
  valid : ∀ c ∈ w.classes, ∀ kf ∈ c.fields, kf.2.obj < w.objs.length
  inner : ∀ o ∈ w.objs, ∀ j ∈ o.inners, j < w.objs.length
  noInner : ∀ c ∈ w.classes, ∀ kf ∈ c.fields, ∀ o ∈ w.objs, kf.2.obj ∉ o.inners

/-- A class body whose type objects were created for it: they are different, not fields of another class, and not element types. -/
structure Fresh (w : World τ σ ρ ν) (body : Body σ ρ ν) : Prop where
  nodup : body.fields.Nodup
  nodupV : body.validators.Nodup
  distinct : (body.fields.map fun kf => kf.2.obj).Nodup
  valid : ∀ kf ∈ body.fields, kf.2.obj < w.objs.length
  unused : ∀ kf ∈ body.fields, ∀ c ∈ w.classes, ∀ kf' ∈ c.fields, kf'.2.obj ≠ kf.2.obj
  noInner : ∀ kf ∈ body.fields, ∀ o ∈ w.objs, kf.2.obj ∉ o.inners

/-- The class that `define` adds. -/
def newClass (w : World τ σ ρ ν) (name : String) (bases : List Nat) (body : Body σ ρ ν) : Class σ ρ ν :=
  { name
    fields := (collect w bases body).2
    options := readOptions (inheritOptions w.classes {} bases.reverse) body.options
    validators := (inheritValidators w.classes [] bases.reverse).update body.validators }

theorem define_classes (w : World τ σ ρ ν) (name : String) (bases : List Nat) (body : Body σ ρ ν) :
    (define w name bases body).classes = w.classes ++ [newClass w name bases body] := rfl

/-! ## Copying -/

/-- A field with its type object. -/
def whole (objs : List (TypeObj τ)) (f : FieldRef σ) : Option (TypeObj τ × Option σ) :=
  match objs[f.obj]? with
  | some o => some (o, f.fget)
  | none => none

theorem look_whole (objs : List (TypeObj τ)) : look (σ := σ) objs = fun f => (whole objs f).map fun p => (p.1.spec, p.1.hint, p.1.level, p.1.inners, p.2) := by
  funext f
  unfold look whole
  cases objs[f.obj]? <;> rfl

theorem bind_look {A : Option (FieldRef σ)} {B : Option (FieldRef σ)} {objs objs' : List (TypeObj τ)} (h : A.bind (whole objs) = B.bind (whole objs')) :
    A.bind (look objs) = B.bind (look objs') := by
  have : ∀ (X : Option (FieldRef σ)) (os : List (TypeObj τ)), X.bind (look os) = (X.bind (whole os)).map fun p => (p.1.spec, p.1.hint, p.1.level, p.1.inners, p.2) := by
    intro X os
    cases X with
    | none => rfl
    | some f => simp only [Option.bind_some, look_whole]
  rw [this, this, h]

theorem whole_append {objs x : List (TypeObj τ)} {f : FieldRef σ} (h : f.obj < objs.length) : whole (objs ++ x) f = whole objs f := by
  unfold whole; rw [List.getElem?_append_left h]

theorem copyFields_objs (objs : List (TypeObj τ)) (fs : Dict String (FieldRef σ)) :
    ∃ x, (copyFields objs fs).1 = objs ++ x ∧ ∀ o ∈ x, o ∈ objs := by
  induction fs generalizing objs with
  | nil => exact ⟨[], by simp [copyFields]⟩
  | cons kf r ih =>
    obtain ⟨k, f⟩ := kf
    unfold copyFields
    cases hf : objs[f.obj]? with
    | none => exact ih objs
    | some o =>
      obtain ⟨x, hx, ho⟩ := ih (objs ++ [o])
      have hm : o ∈ objs := List.mem_of_getElem? hf
      refine ⟨o :: x, by simp [hx], ?_⟩
      intro o' h'
      rcases List.mem_cons.1 h' with rfl | h'
      · exact hm
      · rcases List.mem_append.1 (ho o' h') with h | h
        · exact h
        · simp at h; exact h ▸ hm

theorem copyFields_keys (objs : List (TypeObj τ)) (fs : Dict String (FieldRef σ)) : (copyFields objs fs).2.keys = fs.keys := by
  induction fs generalizing objs with
  | nil => rfl
  | cons kf r ih =>
    obtain ⟨k, f⟩ := kf
    unfold copyFields
    cases hf : objs[f.obj]? with
    | none => simp [ih]
    | some o => simp [ih]

/-- The copies are new objects, all different. -/
theorem copyFields_fresh (objs : List (TypeObj τ)) (fs : Dict String (FieldRef σ)) (hv : ∀ kf ∈ fs, kf.2.obj < objs.length) :
    (∀ kf ∈ (copyFields objs fs).2, objs.length ≤ kf.2.obj ∧ kf.2.obj < (copyFields objs fs).1.length) ∧
    ((copyFields objs fs).2.map fun kf => kf.2.obj).Nodup := by
  induction fs generalizing objs with
  | nil => simp [copyFields]
  | cons kf r ih =>
    obtain ⟨k, f⟩ := kf
    have hf0 := hv (k, f) (by simp)
    unfold copyFields
    have hf : objs[f.obj]? = some objs[f.obj] := by simp [hf0]
    rw [hf]
    have hv' : ∀ kf ∈ r, kf.2.obj < (objs ++ [objs[f.obj]]).length := by
      intro kf hkf
      have := hv kf (by simp [hkf])
      simp only [List.length_append, List.length_cons, List.length_nil]; omega
    obtain ⟨h1, h2⟩ := ih _ hv'
    obtain ⟨x, hx, -⟩ := copyFields_objs (objs ++ [objs[f.obj]]) r
    simp only []
    constructor
    · intro kf hkf
      rcases List.mem_cons.1 hkf with rfl | hkf
      · simp [hx]
      · have := h1 kf hkf
        simp only [List.length_append, List.length_cons, List.length_nil] at this
        omega
    · simp only [List.map_cons, List.nodup_cons, h2, and_true, List.mem_map, not_exists, not_and]
      intro kf hkf e
      have := (h1 kf hkf).1
      simp only [List.length_append, List.length_cons, List.length_nil] at this
      omega

theorem copyFields_look (objs : List (TypeObj τ)) (fs : Dict String (FieldRef σ)) (hv : ∀ kf ∈ fs, kf.2.obj < objs.length) (k : String) :
    ((copyFields objs fs).2.get? k).bind (whole (copyFields objs fs).1) = (fs.get? k).bind (whole objs) := by
  induction fs generalizing objs with
  | nil => rfl
  | cons kf r ih =>
    obtain ⟨k', f⟩ := kf
    have hf0 := hv (k', f) (by simp)
    unfold copyFields
    have hf : objs[f.obj]? = some objs[f.obj] := by simp [hf0]
    rw [hf]
    have hv' : ∀ kf ∈ r, kf.2.obj < (objs ++ [objs[f.obj]]).length := by
      intro kf hkf
      have := hv kf (by simp [hkf])
      simp only [List.length_append, List.length_cons, List.length_nil]; omega
    simp only [Dict.get?_cons]
    split
    · obtain ⟨x, hx, -⟩ := copyFields_objs (objs ++ [objs[f.obj]]) r
      simp [whole, hx, hf]
    · rw [ih _ hv']
      cases hg : Dict.get? r k with
      | none => rfl
      | some g =>
        have := hv _ (List.mem_cons_of_mem _ (Dict.mem_of_get? hg))
        simp only [Option.bind_some]
        exact whole_append this

/-! ## Inheriting -/

theorem get?_update_look (objs : List (TypeObj τ)) (a b : Dict String (FieldRef σ)) (hb : b.Nodup) (hv : ∀ kf ∈ b, kf.2.obj < objs.length) (k : String) :
    ((a.update b).get? k).bind (whole objs) = ((b.get? k).bind (whole objs)).or ((a.get? k).bind (whole objs)) := by
  rw [Dict.get?_update _ _ hb]
  cases hg : Dict.get? b k with
  | none => simp
  | some g =>
    have := hv _ (Dict.mem_of_get? hg)
    simp [whole, this]

theorem leftmost_append (w : World τ σ ρ ν) (l : List Nat) (b : Nat) (k : String) :
    leftmost w (l ++ [b]) k = (leftmost w l k).or ((w.classes[b]?).bind fun c => c.fields.get? k) := by
  induction l with
  | nil => simp only [List.nil_append, leftmost]; cases (w.classes[b]?).bind fun c => c.fields.get? k <;> rfl
  | cons a r ih =>
    simp only [List.cons_append, leftmost, ih]
    cases (w.classes[a]?).bind fun c => c.fields.get? k <;> simp

theorem mem_update {d e : Dict String (FieldRef σ)} {x : String × FieldRef σ} (hd : d.Nodup) (he : e.Nodup) (h : x ∈ d.update e) : x ∈ e ∨ x ∈ d := by
  have := Dict.get?_of_mem (Dict.nodup_update hd e) h
  rw [Dict.get?_update _ _ he] at this
  cases hg : Dict.get? e x.1 with
  | some y => rw [hg] at this; cases this; exact Or.inl (Dict.mem_of_get? hg)
  | none => rw [hg] at this; exact Or.inr (Dict.mem_of_get? this)

theorem nodup_map_update {d e : Dict String (FieldRef σ)} (hd : d.Nodup) (he : e.Nodup) (h1 : (d.map fun kf => kf.2.obj).Nodup)
    (h2 : (e.map fun kf => kf.2.obj).Nodup) (h : ∀ a ∈ d, ∀ b ∈ e, a.2.obj ≠ b.2.obj) : ((d.update e).map fun kf => kf.2.obj).Nodup := by
  have hn := Dict.nodup_update hd e
  rw [List.nodup_map_iff_inj_on (List.Nodup.of_map _ hn)]
  intro a ha b hb hab
  rcases mem_update hd he ha with ha | ha <;> rcases mem_update hd he hb with hb | hb
  · exact (List.nodup_map_iff_inj_on (List.Nodup.of_map _ he)).1 h2 a ha b hb hab
  · exact absurd hab.symm (h b hb a ha)
  · exact absurd hab (h a ha b hb)
  · exact (List.nodup_map_iff_inj_on (List.Nodup.of_map _ hd)).1 h1 a ha b hb hab

/-- Everything about the inherited fields at once. -/
theorem inheritFields_spec (w : World τ σ ρ ν) (hg : Good w) (bs : List Nat) (objs : List (TypeObj τ)) (acc : Dict String (FieldRef σ))
    (hpre : ∃ x, objs = w.objs ++ x ∧ ∀ o ∈ x, o ∈ w.objs) (hn : acc.Nodup) (hacc : ∀ kf ∈ acc, w.objs.length ≤ kf.2.obj ∧ kf.2.obj < objs.length)
    (hd : (acc.map fun kf => kf.2.obj).Nodup) :
    let p := inheritFields w.classes objs acc bs
    (∃ x, p.1 = objs ++ x ∧ ∀ o ∈ x, o ∈ w.objs) ∧ p.2.Nodup ∧ (∀ kf ∈ p.2, w.objs.length ≤ kf.2.obj ∧ kf.2.obj < p.1.length) ∧
    (p.2.map fun kf => kf.2.obj).Nodup ∧
    ∀ k, (p.2.get? k).bind (whole p.1) = ((leftmost w bs.reverse k).bind (whole w.objs)).or ((acc.get? k).bind (whole objs)) := by
  induction bs generalizing objs acc with
  | nil => exact ⟨⟨[], by simp [inheritFields]⟩, hn, hacc, hd, fun k => by simp [inheritFields, leftmost]⟩
  | cons b r ih =>
    cases hb : w.classes[b]? with
    | none =>
      have := ih objs acc hpre hn hacc hd
      simp only [inheritFields, hb]
      refine ⟨this.1, this.2.1, this.2.2.1, this.2.2.2.1, fun k => ?_⟩
      rw [this.2.2.2.2 k, List.reverse_cons, leftmost_append, hb]
      simp
    | some c =>
      have hc : c ∈ w.classes := List.mem_of_getElem? hb
      obtain ⟨x, rfl, hx⟩ := hpre
      have hv : ∀ kf ∈ c.fields, kf.2.obj < (w.objs ++ x).length := by
        intro kf hkf
        have := hg.valid c hc kf hkf
        simp only [List.length_append]; omega
      obtain ⟨y, hy, hyo⟩ := copyFields_objs (w.objs ++ x) c.fields
      have hkeys := copyFields_keys (w.objs ++ x) c.fields
      have hcn : (copyFields (w.objs ++ x) c.fields).2.Nodup := by unfold Dict.Nodup; rw [hkeys]; exact hg.nodup c hc
      obtain ⟨f1, f2⟩ := copyFields_fresh (w.objs ++ x) c.fields hv
      have hlook := copyFields_look (w.objs ++ x) c.fields hv
      simp only [inheritFields, hb]
      generalize hp : copyFields (w.objs ++ x) c.fields = p at *
      have hyo' : ∀ o ∈ y, o ∈ w.objs := by
        intro o ho
        rcases List.mem_append.1 (hyo o ho) with h | h
        · exact h
        · exact hx o h
      have hlen : p.1.length = (w.objs ++ x).length + y.length := by rw [hy, List.length_append]
      have hmem : ∀ kf ∈ acc.update p.2, w.objs.length ≤ kf.2.obj ∧ kf.2.obj < p.1.length := by
        intro kf hkf
        rcases mem_update hn hcn hkf with h | h
        · have := f1 kf h; simp only [List.length_append] at *; omega
        · have := hacc kf h; simp only [List.length_append] at *; omega
      have hdd : ((acc.update p.2).map fun kf => kf.2.obj).Nodup := by
        refine nodup_map_update hn hcn hd f2 ?_
        intro a ha b hb e
        have h1 := (hacc a ha).2
        have h2 := (f1 b hb).1
        omega
      obtain ⟨⟨z, hz, hzo⟩, i2, i3, i4, i5⟩ := ih p.1 (acc.update p.2)
        ⟨x ++ y, by rw [hy, List.append_assoc], by intro o ho; rcases List.mem_append.1 ho with h | h; exact hx o h; exact hyo' o h⟩
        (Dict.nodup_update hn _) hmem hdd
      refine ⟨⟨y ++ z, by rw [hz, hy]; simp, ?_⟩, i2, i3, i4, fun k => ?_⟩
      · intro o ho; rcases List.mem_append.1 ho with h | h; exact hyo' o h; exact hzo o h
      · rw [i5 k, List.reverse_cons, leftmost_append, hb, get?_update_look _ _ _ hcn (fun kf hkf => (f1 kf hkf).2), hlook k]
        simp only [Option.bind_some]
        have e1 : (c.fields.get? k).bind (whole (w.objs ++ x)) = (c.fields.get? k).bind (whole w.objs) := by
          cases hk : c.fields.get? k with
          | none => rfl
          | some g => exact whole_append (hg.valid c hc _ (Dict.mem_of_get? hk))
        have e2 : (acc.get? k).bind (whole p.1) = (acc.get? k).bind (whole (w.objs ++ x)) := by
          cases hk : acc.get? k with
          | none => rfl
          | some g =>
            simp only [Option.bind_some]
            rw [hy]
            exact whole_append (hacc _ (Dict.mem_of_get? hk)).2
        rw [e1, e2]
        cases hl : leftmost w r.reverse k with
        | none => simp
        | some g =>
          cases hlg : whole w.objs g with
          | some _ => simp [hlg]
          | none =>
            exfalso
            have : ∀ l, leftmost w l k = some g → g.obj < w.objs.length := by
              intro l
              induction l with
              | nil => intro h; cases h
              | cons a l ihl =>
                unfold leftmost
                cases ha : w.classes[a]? with
                | none => simpa using ihl
                | some c' =>
                  simp only [Option.bind_some]
                  cases hk' : c'.fields.get? k with
                  | none => simpa using ihl
                  | some g' =>
                    intro h; cases h
                    exact hg.valid c' (List.mem_of_getElem? ha) _ (Dict.mem_of_get? hk')
            have := this _ hl
            simp [whole, this] at hlg

theorem get?_perm {K V : Type} [DecidableEq K] {a b : Dict K V} (h : a.Perm b) (ha : a.Nodup) (k : K) : a.get? k = b.get? k := by
  have hb : b.Nodup := ((h.map Prod.fst).nodup_iff).1 ha
  cases hk : a.get? k with
  | some v => exact (Dict.get?_of_mem hb (h.mem_iff.1 (Dict.mem_of_get? hk))).symm
  | none =>
    cases hk' : b.get? k with
    | none => rfl
    | some v => rw [Dict.get?_of_mem ha (h.mem_iff.2 (Dict.mem_of_get? hk'))] at hk; cases hk

/-- Everything about the field table of the new class, before the fields are set up. -/
theorem collect_spec (w : World τ σ ρ ν) (hg : Good w) (bases : List Nat) (body : Body σ ρ ν) (hb : Fresh w body) :
    let p := collect w bases body
    (∃ x, p.1 = w.objs ++ x ∧ ∀ o ∈ x, o ∈ w.objs) ∧ p.2.Nodup ∧
    (∀ kf ∈ p.2, kf ∈ body.fields ∨ (w.objs.length ≤ kf.2.obj ∧ kf.2.obj < p.1.length)) ∧
    (p.2.map fun kf => kf.2.obj).Nodup ∧
    (p.2.Pairwise fun a b => hintOf p.1 a.2 ≤ hintOf p.1 b.2) ∧
    ∀ k, (p.2.get? k).bind (whole p.1) = ((body.fields.get? k).or (leftmost w bases k)).bind (whole w.objs) := by
  obtain ⟨⟨x, hx, hxo⟩, i2, i3, i4, i5⟩ := inheritFields_spec w hg bases.reverse w.objs [] ⟨[], by simp⟩ (by simp [Dict.Nodup]) (by simp) (by simp)
  unfold collect
  generalize hp : inheritFields w.classes w.objs [] bases.reverse = p at *
  simp only []
  have hperm := List.perm_insertionSort (fun a b : String × FieldRef σ => hintOf p.1 a.2 ≤ hintOf p.1 b.2) (p.2.update body.fields)
  have hn := Dict.nodup_update i2 body.fields
  have hnd : ((p.2.update body.fields).map fun kf => kf.2.obj).Nodup := by
    refine nodup_map_update i2 hb.nodup i4 hb.distinct ?_
    intro a ha b hbb e
    have := (i3 a ha).1
    have := hb.valid b hbb
    omega
  refine ⟨⟨x, hx, hxo⟩, ((hperm.map Prod.fst).nodup_iff).2 hn, ?_, ((hperm.map _).nodup_iff).2 hnd, ?_, ?_⟩
  · intro kf hkf
    rcases mem_update i2 hb.nodup (hperm.mem_iff.1 hkf) with h | h
    · exact Or.inl h
    · exact Or.inr (i3 kf h)
  · haveI : Std.Total (fun a b : String × FieldRef σ => hintOf p.1 a.2 ≤ hintOf p.1 b.2) := ⟨fun a b => Nat.le_total _ _⟩
    haveI : IsTrans (String × FieldRef σ) (fun a b => hintOf p.1 a.2 ≤ hintOf p.1 b.2) := ⟨fun a b c => Nat.le_trans⟩
    exact List.pairwise_insertionSort _ _
  · intro k
    rw [← get?_perm hperm.symm hn, get?_update_look _ _ _ hb.nodup, i5 k, List.reverse_reverse]
    · have e1 : (body.fields.get? k).bind (whole p.1) = (body.fields.get? k).bind (whole w.objs) := by
        cases hk : body.fields.get? k with
        | none => rfl
        | some g =>
          simp only [Option.bind_some]
          rw [hx]
          exact whole_append (hb.valid _ (Dict.mem_of_get? hk))
      rw [e1]
      cases hk : body.fields.get? k with
      | none => simp
      | some g =>
        have := hb.valid _ (Dict.mem_of_get? hk)
        simp [whole, this]
    · intro kf hkf
      have := hb.valid kf hkf
      rw [hx, List.length_append]; omega

/-! ## Setting up -/

theorem setupObj_length (name : Option String) (owner : Nat) (on : String) (objs : List (TypeObj τ)) (i : Nat) : (setupObj name owner on objs i).length = objs.length := by
  simp [setupObj]

theorem setupObj_get (name : Option String) (owner : Nat) (on : String) (objs : List (TypeObj τ)) (i j : Nat) :
    (setupObj name owner on objs i)[j]? = if i = j then (objs[j]?).map fun o => o.setUp name owner on else objs[j]? := by
  unfold setupObj
  rw [List.getElem?_modify]
  split <;> simp_all

theorem setUp_setUp (o : TypeObj τ) (n n' : Option String) (owner : Nat) (on : String) : (o.setUp n' owner on).setUp n owner on = o.setUp n owner on := by
  unfold TypeObj.setUp
  congr 1
  by_cases h : (o.target.isNone && o.ref == some on) = true
  · simp [h]
  · simp only [h, Bool.false_eq_true, if_false]

/-- What a set-up of the element types does to the object `j`. -/
theorem inners_get (owner : Nat) (on : String) (is : List Nat) (objs : List (TypeObj τ)) (j : Nat) :
    (is.foldl (setupObj none owner on) objs)[j]? = if j ∈ is then (objs[j]?).map fun o => o.setUp none owner on else objs[j]? := by
  induction is generalizing objs with
  | nil => simp
  | cons i r ih =>
    simp only [List.foldl_cons]
    rw [ih, setupObj_get]
    by_cases h1 : i = j
    · subst h1
      cases objs[i]? <;> simp [setUp_setUp]
    · have : ¬ j = i := fun e => h1 e.symm
      simp [h1, this]

/-- The element types of an object. -/
def innersOf (objs : List (TypeObj τ)) (i : Nat) : List Nat :=
  match objs[i]? with
  | some o => o.inners
  | none => []

theorem setup_get (objs : List (TypeObj τ)) (name : String) (owner : Nat) (on : String) (i j : Nat) (hi : i ∉ innersOf objs i) :
    (setup objs name owner on i)[j]? =
      if i = j then (objs[j]?).map fun o => o.setUp (some name) owner on
      else if j ∈ innersOf objs i then (objs[j]?).map fun o => o.setUp none owner on else objs[j]? := by
  have e : setup objs name owner on i = setupObj (some name) owner on ((innersOf objs i).foldl (setupObj none owner on) objs) i := rfl
  rw [e, setupObj_get, inners_get]
  by_cases h1 : i = j
  · subst h1
    simp [hi]
  · simp [h1]

theorem setup_innersOf (objs : List (TypeObj τ)) (name : String) (owner : Nat) (on : String) (i j : Nat) (hi : i ∉ innersOf objs i) :
    innersOf (setup objs name owner on i) j = innersOf objs j := by
  have hg := setup_get objs name owner on i j hi
  generalize setup objs name owner on i = objs' at hg
  unfold innersOf
  rw [hg]
  by_cases h1 : i = j
  · rw [if_pos h1]; cases objs[j]? <;> rfl
  · rw [if_neg h1]
    by_cases h2 : j ∈ innersOf objs i
    · rw [if_pos h2]; cases objs[j]? <;> rfl
    · rw [if_neg h2]

/-- What setting up all fields does to the object `j`: a field gets its name and the owner; an element type of a field gets the owner; all
other objects stay as they are. -/
theorem setupAll_get (owner : Nat) (on : String) (fs : Dict String (FieldRef σ)) (objs : List (TypeObj τ))
    (hin : ∀ a ∈ fs, ∀ b ∈ fs, a.2.obj ∉ innersOf objs b.2.obj) (hd : (fs.map fun kf => kf.2.obj).Nodup) (j : Nat) :
    (∀ k f, (k, f) ∈ fs → f.obj = j → (setupAll owner on objs fs)[j]? = (objs[j]?).map fun o => o.setUp (some k) owner on) ∧
    ((∀ kf ∈ fs, kf.2.obj ≠ j) → (∃ kf ∈ fs, j ∈ innersOf objs kf.2.obj) →
      (setupAll owner on objs fs)[j]? = (objs[j]?).map fun o => o.setUp none owner on) ∧
    ((∀ kf ∈ fs, kf.2.obj ≠ j) → (∀ kf ∈ fs, j ∉ innersOf objs kf.2.obj) → (setupAll owner on objs fs)[j]? = objs[j]?) := by
  induction fs generalizing objs with
  | nil => simp [setupAll]
  | cons kf r ih =>
    obtain ⟨k, f⟩ := kf
    have hf : f.obj ∉ innersOf objs f.obj := hin (k, f) (by simp) (k, f) (by simp)
    have hinn : ∀ i, innersOf (setup objs k owner on f.obj) i = innersOf objs i := fun i => setup_innersOf objs k owner on f.obj i hf
    have hin' : ∀ a ∈ r, ∀ b ∈ r, a.2.obj ∉ innersOf (setup objs k owner on f.obj) b.2.obj := by
      intro a ha b hb; rw [hinn]; exact hin a (by simp [ha]) b (by simp [hb])
    rw [List.map_cons, List.nodup_cons] at hd
    have hd1 : ∀ kf ∈ r, kf.2.obj ≠ f.obj := fun kf hkf e => hd.1 (List.mem_map.2 ⟨kf, hkf, e⟩)
    obtain ⟨i1, i2, i3⟩ := ih (setup objs k owner on f.obj) hin' hd.2
    have hg := setup_get objs k owner on f.obj j hf
    simp only [hinn] at i2 i3
    unfold setupAll
    refine ⟨?_, ?_, ?_⟩
    · intro k' f' hm e
      rcases List.mem_cons.1 hm with h | h
      · cases h
        rw [i3 (fun kf hkf => e ▸ hd1 kf hkf), hg, if_pos e]
        intro kf hkf
        subst e
        exact hin (k, f) (by simp) kf (by simp [hkf])
      · rw [i1 k' f' h e, hg]
        have h1 : ¬ f.obj = j := by intro e'; exact hd1 _ h (by rw [e, e'])
        have h2 : j ∉ innersOf objs f.obj := by rw [← e]; exact hin (k', f') hm (k, f) (by simp)
        simp [h1, h2]
    · intro hne hex
      have h1 : ¬ f.obj = j := hne (k, f) (by simp)
      have hne' : ∀ kf ∈ r, kf.2.obj ≠ j := fun kf hkf => hne kf (by simp [hkf])
      by_cases hr : ∃ kf ∈ r, j ∈ innersOf objs kf.2.obj
      · rw [i2 hne' hr, hg, if_neg h1]
        split
        · cases objs[j]? <;> simp [setUp_setUp]
        · rfl
      · have hr' : ∀ kf ∈ r, j ∉ innersOf objs kf.2.obj := fun kf hkf h => hr ⟨kf, hkf, h⟩
        rw [i3 hne' hr', hg, if_neg h1]
        obtain ⟨kf, hkf, hj⟩ := hex
        rcases List.mem_cons.1 hkf with h | h
        · subst h; rw [if_pos hj]
        · exact absurd hj (hr' kf h)
    · intro hne hno
      have h1 : ¬ f.obj = j := hne (k, f) (by simp)
      rw [i3 (fun kf hkf => hne kf (by simp [hkf])) (fun kf hkf => hno kf (by simp [hkf])), hg, if_neg h1, if_neg (hno (k, f) (by simp))]

/-- In particular only names and owners change. -/
theorem setupAll_same (owner : Nat) (on : String) (fs : Dict String (FieldRef σ)) (objs : List (TypeObj τ))
    (hin : ∀ a ∈ fs, ∀ b ∈ fs, a.2.obj ∉ innersOf objs b.2.obj) (hd : (fs.map fun kf => kf.2.obj).Nodup) (j : Nat) :
    ((setupAll owner on objs fs)[j]?).map (fun o => (o.spec, o.hint, o.level, o.inners)) = (objs[j]?).map fun o => (o.spec, o.hint, o.level, o.inners) := by
  obtain ⟨h1, h2, h3⟩ := setupAll_get owner on fs objs hin hd j
  by_cases ha : ∃ kf ∈ fs, kf.2.obj = j
  · obtain ⟨⟨k, f⟩, hkf, e⟩ := ha
    rw [h1 k f hkf e]; cases objs[j]? <;> rfl
  · have ha' : ∀ kf ∈ fs, kf.2.obj ≠ j := fun kf hkf e => ha ⟨kf, hkf, e⟩
    by_cases hb : ∃ kf ∈ fs, j ∈ innersOf objs kf.2.obj
    · rw [h2 ha' hb]; cases objs[j]? <;> rfl
    · rw [h3 ha' (fun kf hkf h => hb ⟨kf, hkf, h⟩)]

theorem look_same {objs objs' : List (TypeObj τ)} (f : FieldRef σ)
    (h : (objs'[f.obj]?).map (fun o => (o.spec, o.hint, o.level, o.inners)) = (objs[f.obj]?).map fun o => (o.spec, o.hint, o.level, o.inners)) :
    look objs' f = look objs f := by
  unfold look
  cases h1 : objs'[f.obj]? with
  | none => cases h2 : objs[f.obj]? with
    | none => rfl
    | some o => rw [h1, h2] at h; cases h
  | some o' => cases h2 : objs[f.obj]? with
    | none => rw [h1, h2] at h; cases h
    | some o =>
      rw [h1, h2] at h
      simp only [Option.map_some, Option.some.injEq, Prod.mk.injEq] at h
      simp [h]

/-- The fields of a new class never are element types. -/
theorem collect_noInner (w : World τ σ ρ ν) (hg : Good w) (bases : List Nat) (body : Body σ ρ ν) (hb : Fresh w body) :
    ∀ a ∈ (collect w bases body).2, ∀ o ∈ (collect w bases body).1, a.2.obj ∉ o.inners := by
  obtain ⟨⟨x, hx, hxo⟩, -, c3, -, -, -⟩ := collect_spec w hg bases body hb
  intro a ha o ho
  have ho' : o ∈ w.objs := by
    rw [hx] at ho
    rcases List.mem_append.1 ho with h | h
    · exact h
    · exact hxo o h
  rcases c3 a ha with h | h
  · exact hb.noInner a h o ho'
  · intro hm
    have := hg.inner o ho' _ hm
    omega

theorem collect_noInnersOf (w : World τ σ ρ ν) (hg : Good w) (bases : List Nat) (body : Body σ ρ ν) (hb : Fresh w body) :
    ∀ a ∈ (collect w bases body).2, ∀ b ∈ (collect w bases body).2, a.2.obj ∉ innersOf (collect w bases body).1 b.2.obj := by
  intro a ha b hb'
  unfold innersOf
  cases ho : (collect w bases body).1[b.2.obj]? with
  | none => simp
  | some o => exact collect_noInner w hg bases body hb a ha o (List.mem_of_getElem? ho)

/-! ## C71 -/

/-- **C71, fields**: a class has exactly the fields of its body and of its bases; for each name the definition in the body wins, then the one of
the leftmost base that has the name. -/
theorem C71_fields (w : World τ σ ρ ν) (hg : Good w) (name : String) (bases : List Nat) (body : Body σ ρ ν) (hb : Fresh w body) (k : String) :
    ((newClass w name bases body).fields.get? k).bind (look (define w name bases body).objs) =
      ((body.fields.get? k).or (leftmost w bases k)).bind (look w.objs) := by
  obtain ⟨-, -, -, c4, -, c6⟩ := collect_spec w hg bases body hb
  have hs := setupAll_same w.classes.length name (collect w bases body).2 (collect w bases body).1 (collect_noInnersOf w hg bases body hb) c4
  rw [← bind_look (c6 k)]
  show ((collect w bases body).2.get? k).bind (look (setupAll w.classes.length name (collect w bases body).1 (collect w bases body).2)) = _
  cases (collect w bases body).2.get? k with
  | none => rfl
  | some f => exact look_same f (hs f.obj)

/-- **C71, order**: the fields of a class are in the order in which their type objects were created. -/
theorem C71_order (w : World τ σ ρ ν) (hg : Good w) (name : String) (bases : List Nat) (body : Body σ ρ ν) (hb : Fresh w body) :
    (newClass w name bases body).fields.Pairwise fun a b =>
      hintOf (define w name bases body).objs a.2 ≤ hintOf (define w name bases body).objs b.2 := by
  obtain ⟨-, -, -, c4, c5, -⟩ := collect_spec w hg bases body hb
  have hs := setupAll_same w.classes.length name (collect w bases body).2 (collect w bases body).1 (collect_noInnersOf w hg bases body hb) c4
  have hh : ∀ f : FieldRef σ, hintOf (define w name bases body).objs f = hintOf (collect w bases body).1 f := by
    intro f
    have := hs f.obj
    show hintOf (setupAll w.classes.length name (collect w bases body).1 (collect w bases body).2) f = _
    unfold hintOf
    cases h1 : (setupAll w.classes.length name (collect w bases body).1 (collect w bases body).2)[f.obj]? with
    | none => cases h2 : (collect w bases body).1[f.obj]? with
      | none => rfl
      | some o => rw [h1, h2] at this; cases this
    | some o' => cases h2 : (collect w bases body).1[f.obj]? with
      | none => rw [h1, h2] at this; cases this
      | some o =>
        rw [h1, h2] at this
        simp only [Option.map_some, Option.some.injEq, Prod.mk.injEq] at this
        simp [this]
  exact c5.imp (fun {a b} h => by rw [hh, hh]; exact h)

/-- **C71, ownership**: every field of a new class knows its name and belongs to the class. -/
theorem C71_owner (w : World τ σ ρ ν) (hg : Good w) (name : String) (bases : List Nat) (body : Body σ ρ ν) (hb : Fresh w body) (k : String) (f : FieldRef σ)
    (h : (newClass w name bases body).fields.get? k = some f) :
    ∃ o, (define w name bases body).objs[f.obj]? = some o ∧ o.name = some k ∧ o.owner = some w.classes.length := by
  obtain ⟨⟨x, hx, -⟩, -, c3, c4, -, -⟩ := collect_spec w hg bases body hb
  have hm : (k, f) ∈ (collect w bases body).2 := Dict.mem_of_get? h
  have := (setupAll_get w.classes.length name (collect w bases body).2 (collect w bases body).1 (collect_noInnersOf w hg bases body hb) c4 f.obj).1 k f hm rfl
  have hlt : f.obj < (collect w bases body).1.length := by
    rcases c3 _ hm with h | h
    · have := hb.valid _ h; rw [hx, List.length_append]; simp only at this; omega
    · exact h.2
  rw [List.getElem?_eq_getElem hlt] at this
  exact ⟨_, this, rfl, rfl⟩

theorem leftmostValidator_append (w : World τ σ ρ ν) (l : List Nat) (b : Nat) (k : String) :
    leftmostValidator w (l ++ [b]) k = (leftmostValidator w l k).or ((w.classes[b]?).bind fun c => c.validators.get? k) := by
  induction l with
  | nil => simp only [List.nil_append, leftmostValidator]; cases (w.classes[b]?).bind fun c => c.validators.get? k <;> rfl
  | cons a r ih =>
    simp only [List.cons_append, leftmostValidator, ih]
    cases (w.classes[a]?).bind fun c => c.validators.get? k <;> simp

theorem inheritValidators_get (w : World τ σ ρ ν) (hg : Good w) (bs : List Nat) (acc : Dict String ν) (k : String) :
    (inheritValidators w.classes acc bs).get? k = (leftmostValidator w bs.reverse k).or (acc.get? k) := by
  induction bs generalizing acc with
  | nil => simp [inheritValidators, leftmostValidator]
  | cons b r ih =>
    rw [List.reverse_cons, leftmostValidator_append]
    unfold inheritValidators
    cases hb : w.classes[b]? with
    | none => simp [ih]
    | some c =>
      simp only [ih, Dict.get?_update _ _ (hg.nodupV c (List.mem_of_getElem? hb)), Option.bind_some]
      rw [Option.or_assoc]

/-- **C71, validators**: the same holds for the model-level validators. -/
theorem C71_validators (w : World τ σ ρ ν) (hg : Good w) (name : String) (bases : List Nat) (body : Body σ ρ ν) (hb : Fresh w body) (k : String) :
    (newClass w name bases body).validators.get? k = (body.validators.get? k).or (leftmostValidator w bases k) := by
  show ((inheritValidators w.classes [] bases.reverse).update body.validators).get? k = _
  rw [Dict.get?_update _ _ hb.nodupV, inheritValidators_get w hg, List.reverse_reverse]
  simp

/-- The options of the leftmost base, or the defaults. -/
def baseOptions (w : World τ σ ρ ν) : List Nat → Options ρ
  | [] => {}
  | b :: r => match w.classes[b]? with
    | some c => c.options
    | none => baseOptions w r

theorem inheritOptions_eq (w : World τ σ ρ ν) (bs : List Nat) (acc : Options ρ) :
    inheritOptions w.classes acc bs = match (bs.reverse.filterMap fun b => w.classes[b]?) with
      | [] => acc
      | c :: _ => c.options := by
  induction bs generalizing acc with
  | nil => rfl
  | cons b r ih =>
    unfold inheritOptions
    rw [List.reverse_cons, List.filterMap_append]
    cases hb : w.classes[b]? with
    | none => simp only [ih, List.filterMap_cons, hb, List.filterMap_nil, List.append_nil]
    | some c =>
      simp only [ih, List.filterMap_cons, hb, List.filterMap_nil]
      cases (List.filterMap (fun b => w.classes[b]?) r.reverse) <;> rfl

theorem baseOptions_eq (w : World τ σ ρ ν) (bs : List Nat) :
    baseOptions w bs = match (bs.filterMap fun b => w.classes[b]?) with
      | [] => {}
      | c :: _ => c.options := by
  induction bs with
  | nil => rfl
  | cons b r ih =>
    unfold baseOptions
    cases hb : w.classes[b]? with
    | none => simp only [ih, List.filterMap_cons, hb]
    | some c => simp only [List.filterMap_cons, hb]

/-- **C71, options**: an option named in the body's `Options` wins, the others are those of the leftmost base, or the defaults without a base;
the roles of the body are added to those of the leftmost base, and win; `serialize_when_none` beats `export_level`. -/
theorem C71_options (w : World τ σ ρ ν) (name : String) (bases : List Nat) (body : Body σ ρ ν) (d : OptionsDecl ρ) (hd : body.options = some d)
    (hr : ∀ r, d.roles = some r → r.Nodup) (he : d.extras.Nodup) :
    let o := (newClass w name bases body).options
    let base := baseOptions w bases
    o.namespaceName = d.namespaceName.getD base.namespaceName ∧
    o.exportOrder = d.exportOrder.getD base.exportOrder ∧
    (∀ k, o.roles.get? k = (d.roles.bind fun r => r.get? k).or (base.roles.get? k)) ∧
    (∀ k, o.extras.get? k = (d.extras.get? k).or (base.extras.get? k)) ∧
    (d.serializeWhenNone = some (some true) → o.exportLevel = 10) ∧
    (d.serializeWhenNone = some (some false) → o.exportLevel = 1) ∧
    ((d.serializeWhenNone = none ∨ d.serializeWhenNone = some none) → o.exportLevel = d.exportLevel.getD base.exportLevel) := by
  have e : inheritOptions w.classes {} bases.reverse = baseOptions w bases := by
    rw [inheritOptions_eq, baseOptions_eq, List.reverse_reverse]
  simp only [newClass, hd, e, readOptions]
  refine ⟨trivial, trivial, ?_, ?_, ?_, ?_, ?_⟩
  · intro k
    cases hro : d.roles with
    | none => simp
    | some r => simp [Dict.get?_update _ _ (hr r hro)]
  · intro k; rw [Dict.get?_update _ _ he]
  · intro h; rw [h]
  · intro h; rw [h]
  · rintro (h | h) <;> rw [h]

/-- **C71, no options**: without an `Options` class the options are those of the leftmost base. -/
theorem C71_options_inherited (w : World τ σ ρ ν) (name : String) (bases : List Nat) (body : Body σ ρ ν) (hd : body.options = none) :
    (newClass w name bases body).options = baseOptions w bases := by
  have e : inheritOptions w.classes {} bases.reverse = baseOptions w bases := by
    rw [inheritOptions_eq, baseOptions_eq, List.reverse_reverse]
  simp only [newClass, hd, e, readOptions]

/-! ## C72 -/

/-- **C72, the schemas of existing classes**: a class definition changes no field table, options or validators of an existing class. -/
theorem C72_schemas (w : World τ σ ρ ν) (name : String) (bases : List Nat) (body : Body σ ρ ν) (c : Nat) (hc : c < w.classes.length) :
    (define w name bases body).classes[c]? = w.classes[c]? := by
  rw [define_classes, List.getElem?_append_left hc]

/-- **C72, the fields of existing classes**: a class definition with type objects of its own changes no type object that is a field of an existing
class: neither what was given to it, nor its name, nor its owner. -/
theorem C72_fields (w : World τ σ ρ ν) (hg : Good w) (name : String) (bases : List Nat) (body : Body σ ρ ν) (hb : Fresh w body)
    (c : Class σ ρ ν) (hc : c ∈ w.classes) (kf : String × FieldRef σ) (hkf : kf ∈ c.fields) :
    (define w name bases body).objs[kf.2.obj]? = w.objs[kf.2.obj]? := by
  obtain ⟨⟨x, hx, hxo⟩, -, c3, c4, -, -⟩ := collect_spec w hg bases body hb
  have hlt := hg.valid c hc kf hkf
  have h3 := (setupAll_get w.classes.length name (collect w bases body).2 (collect w bases body).1 (collect_noInnersOf w hg bases body hb) c4 kf.2.obj).2.2
  show (setupAll w.classes.length name (collect w bases body).1 (collect w bases body).2)[kf.2.obj]? = _
  rw [h3, hx, List.getElem?_append_left hlt]
  · intro a ha
    rcases c3 a ha with h | h
    · exact fun e => hb.unused a h c hc kf hkf e.symm
    · omega
  · intro a ha
    unfold innersOf
    cases ho : (collect w bases body).1[a.2.obj]? with
    | none => simp
    | some o =>
      have ho' : o ∈ w.objs := by
        have := List.mem_of_getElem? ho
        rw [hx] at this
        rcases List.mem_append.1 this with h | h
        · exact h
        · exact hxo o h
      exact hg.noInner c hc kf hkf o ho'

/-- **C72, element types**: of an element type a class definition changes at most its owner (and it has no name), and the model it refers to if that was given as
a text, is the name of the new class, and is not resolved yet. -/
theorem C72_element_types (w : World τ σ ρ ν) (hg : Good w) (name : String) (bases : List Nat) (body : Body σ ρ ν) (hb : Fresh w body) (j : Nat) (hj : j < w.objs.length)
    (hin : ∀ kf ∈ body.fields, kf.2.obj ≠ j) :
    (define w name bases body).objs[j]? = w.objs[j]? ∨
    (define w name bases body).objs[j]? = (w.objs[j]?).map fun o =>
      { o with
        name := none
        owner := some w.classes.length
        target := if o.target.isNone && o.ref == some name then some w.classes.length else o.target } := by
  obtain ⟨⟨x, hx, hxo⟩, -, c3, c4, -, -⟩ := collect_spec w hg bases body hb
  obtain ⟨-, h2, h3⟩ := setupAll_get w.classes.length name (collect w bases body).2 (collect w bases body).1 (collect_noInnersOf w hg bases body hb) c4 j
  have e : (collect w bases body).1[j]? = w.objs[j]? := by rw [hx, List.getElem?_append_left hj]
  rw [e] at h2 h3
  have hne : ∀ kf ∈ (collect w bases body).2, kf.2.obj ≠ j := by
    intro a ha
    rcases c3 a ha with h | h
    · exact hin a h
    · omega
  by_cases hex : ∃ kf ∈ (collect w bases body).2, j ∈ innersOf (collect w bases body).1 kf.2.obj
  · exact Or.inr (h2 hne hex)
  · exact Or.inl (h3 hne (fun kf hkf h => hex ⟨kf, hkf, h⟩))

/-- **C72, export levels**: the effective export level of every element type `j`, hence what is exported for the items of a list or dict of an existing class,
is unchanged by a class definition, provided the level is fixed by the call or by the element type itself, or the new class has the same
`export_level` as the class that owned the element type before. Otherwise it may change: the definition of a subclass with another `export_level` changes what its
parents export, see `C72_counterexample`. -/
theorem C72_levels (w : World τ σ ρ ν) (hg : Good w) (name : String) (bases : List Nat) (body : Body σ ρ ν) (hb : Fresh w body) (j : Nat) (o : TypeObj τ)
    (hj : w.objs[j]? = some o) (hin : ∀ kf ∈ body.fields, kf.2.obj ≠ j) (hown : ∀ c, o.owner = some c → c < w.classes.length) (ctx : Option Nat)
    (h : ctx.isSome ∨ o.level.isSome ∨
      ∃ c cl, o.owner = some c ∧ w.classes[c]? = some cl ∧ cl.options.exportLevel = (newClass w name bases body).options.exportLevel) :
    exportLevel (define w name bases body) j ctx = exportLevel w j ctx := by
  have hlt : j < w.objs.length := by
    rcases Nat.lt_or_ge j w.objs.length with h | h
    · exact h
    · rw [List.getElem?_eq_none h] at hj; cases hj
  rcases C72_element_types w hg name bases body hb j hlt hin with e | e
  · unfold exportLevel
    rw [e, hj]
    simp only []
    cases ho : o.owner with
    | none => rfl
    | some c => simp only [C72_schemas w name bases body c (hown c ho)]
  · unfold exportLevel
    rw [e, hj]
    simp only [Option.map_some, define_classes, List.getElem?_append_right (Nat.le_refl _), Nat.sub_self, List.getElem?_cons_zero]
    rcases h with h | h | ⟨c, cl, h1, h2, h3⟩
    · cases ctx with
      | none => cases h
      | some l => rfl
    · cases hl : o.level with
      | none => rw [hl] at h; cases h
      | some l => rfl
    · simp only [h1, h2, h3]

/-! ## Histories -/

/-- What a program can do: create type objects whose element types exist and are not fields, define classes, and add fields to existing classes. -/
inductive Reach : World τ σ ρ ν → Prop
  | start : Reach {}
  | alloc {w : World τ σ ρ ν} (o : TypeObj τ) (h : Reach w) (ht : o.target = none) (hin : ∀ j ∈ o.inners, j < w.objs.length ∧ ∀ c ∈ w.classes, ∀ kf ∈ c.fields, kf.2.obj ≠ j) :
      Reach { w with objs := w.objs ++ [o] }
  | define {w : World τ σ ρ ν} (name : String) (bases : List Nat) (body : Body σ ρ ν) (h : Reach w) (hb : Fresh w body) : Reach (define w name bases body)
  | append {w : World τ σ ρ ν} (c : Nat) (name : String) (f : FieldRef σ) (h : Reach w) (hc : c < w.classes.length) (hb : Fresh w { fields := [(name, f)] }) : Reach (appendField w c name f)

theorem nodup_inheritValidators (cls : List (Class σ ρ ν)) (acc : Dict String ν) (ha : acc.Nodup) (bs : List Nat) : (inheritValidators cls acc bs).Nodup := by
  induction bs generalizing acc with
  | nil => exact ha
  | cons b r ih =>
    unfold inheritValidators
    cases cls[b]? with
    | none => exact ih acc ha
    | some c => exact ih _ (Dict.nodup_update ha _)

theorem define_objs_mem (w : World τ σ ρ ν) (hg : Good w) (name : String) (bases : List Nat) (body : Body σ ρ ν) (hb : Fresh w body) (o : TypeObj τ)
    (ho : o ∈ (define w name bases body).objs) : ∃ o' ∈ w.objs, o'.inners = o.inners := by
  obtain ⟨⟨x, hx, hxo⟩, -, c3, c4, -, -⟩ := collect_spec w hg bases body hb
  have hs := setupAll_same w.classes.length name (collect w bases body).2 (collect w bases body).1 (collect_noInnersOf w hg bases body hb) c4
  obtain ⟨j, hj⟩ := List.getElem?_of_mem ho
  have h1 := hs j
  have hj : (setupAll w.classes.length name (collect w bases body).1 (collect w bases body).2)[j]? = some o := hj
  rw [hj] at h1
  cases h2 : (collect w bases body).1[j]? with
  | none => rw [h2] at h1; cases h1
  | some o' =>
    rw [h2] at h1
    simp only [Option.map_some, Option.some.injEq, Prod.mk.injEq] at h1
    refine ⟨o', ?_, h1.2.2.2.symm⟩
    have := List.mem_of_getElem? h2
    rw [hx] at this
    rcases List.mem_append.1 this with h | h
    · exact h
    · exact hxo o' h

theorem setupAll_length (owner : Nat) (on : String) (fs : Dict String (FieldRef σ)) (objs : List (TypeObj τ)) : (setupAll owner on objs fs).length = objs.length := by
  have hf : ∀ (is : List Nat) (objs : List (TypeObj τ)), (is.foldl (setupObj none owner on) objs).length = objs.length := by
    intro is
    induction is with
    | nil => simp
    | cons i r ih => intro objs; simp [ih, setupObj_length]
  induction fs generalizing objs with
  | nil => rfl
  | cons kf r ih =>
    unfold setupAll
    rw [ih]
    unfold setup
    rw [setupObj_length, hf]

theorem good_define (w : World τ σ ρ ν) (hg : Good w) (name : String) (bases : List Nat) (body : Body σ ρ ν) (hb : Fresh w body) : Good (define w name bases body) := by
  obtain ⟨⟨x, hx, hxo⟩, c2, c3, c4, -, -⟩ := collect_spec w hg bases body hb
  have hlen : (define w name bases body).objs.length = w.objs.length + x.length := by
    show (setupAll w.classes.length name (collect w bases body).1 (collect w bases body).2).length = _
    rw [setupAll_length, hx, List.length_append]
  have hcases : ∀ c ∈ (define w name bases body).classes, c ∈ w.classes ∨ c = newClass w name bases body := by
    intro c hc; rw [define_classes] at hc; simpa using hc
  refine ⟨?_, ?_, ?_, ?_, ?_⟩
  · intro c hc
    rcases hcases c hc with h | rfl
    · exact hg.nodup c h
    · exact c2
  · intro c hc
    rcases hcases c hc with h | rfl
    · exact hg.nodupV c h
    · exact Dict.nodup_update (nodup_inheritValidators _ _ (by simp [Dict.Nodup]) _) _
  · intro c hc kf hkf
    rw [hlen]
    rcases hcases c hc with h | rfl
    · have := hg.valid c h kf hkf; omega
    · rcases c3 kf hkf with h | h
      · have := hb.valid kf h; omega
      · rw [hx, List.length_append] at h; omega
  · intro o ho j hj
    obtain ⟨o', ho', e⟩ := define_objs_mem w hg name bases body hb o ho
    have := hg.inner o' ho' j (e ▸ hj)
    omega
  · intro c hc kf hkf o ho
    obtain ⟨o', ho', e⟩ := define_objs_mem w hg name bases body hb o ho
    rw [← e]
    rcases hcases c hc with h | rfl
    · exact hg.noInner c h kf hkf o' ho'
    · rcases c3 kf hkf with h | h
      · exact hb.noInner kf h o' ho'
      · intro hm; have := hg.inner o' ho' _ hm; omega

theorem appendField_classes (w : World τ σ ρ ν) (c : Nat) (name : String) (f : FieldRef σ) (c' : Nat) :
    (appendField w c name f).classes[c']? =
      if c = c' then (w.classes[c']?).map fun cl => { cl with fields := cl.fields.set name f } else w.classes[c']? := by
  show (w.classes.modify c _)[c']? = _
  rw [List.getElem?_modify]
  split <;> simp_all

theorem fresh_one {w : World τ σ ρ ν} {name : String} {f : FieldRef σ} (hb : Fresh w { fields := [(name, f)] }) :
    f.obj < w.objs.length ∧ (∀ c ∈ w.classes, ∀ kf ∈ c.fields, kf.2.obj ≠ f.obj) ∧ ∀ o ∈ w.objs, f.obj ∉ o.inners :=
  ⟨hb.valid (name, f) (by simp), hb.unused (name, f) (by simp), hb.noInner (name, f) (by simp)⟩

theorem innersOf_mem {objs : List (TypeObj τ)} {i j : Nat} (h : j ∈ innersOf objs i) : ∃ o ∈ objs, j ∈ o.inners := by
  unfold innersOf at h
  cases ho : objs[i]? with
  | none => rw [ho] at h; cases h
  | some o => rw [ho] at h; exact ⟨o, List.mem_of_getElem? ho, h⟩

theorem appendField_objs (w : World τ σ ρ ν) (c : Nat) (name : String) (f : FieldRef σ) (hn : ∀ o ∈ w.objs, f.obj ∉ o.inners) (j : Nat) :
    (appendField w c name f).objs[j]? =
      if f.obj = j then (w.objs[j]?).map fun o => o.setUp (some name) c (className w c)
      else if j ∈ innersOf w.objs f.obj then (w.objs[j]?).map fun o => o.setUp none c (className w c) else w.objs[j]? := by
  apply setup_get
  intro h
  obtain ⟨o, ho, h⟩ := innersOf_mem h
  exact hn o ho h

theorem mem_set {d : Dict String (FieldRef σ)} {k : String} {f : FieldRef σ} {x : String × FieldRef σ} (hd : d.Nodup) (h : x ∈ d.set k f) : x = (k, f) ∨ x ∈ d := by
  have h1 := Dict.get?_of_mem (Dict.nodup_set hd k f) (k := x.1) (v := x.2) h
  rw [Dict.get?_set] at h1
  split at h1
  · rename_i e; cases h1; exact .inl (by rw [e])
  · exact .inr (Dict.mem_of_get? h1)

theorem good_append (w : World τ σ ρ ν) (hg : Good w) (c : Nat) (name : String) (f : FieldRef σ) (hb : Fresh w { fields := [(name, f)] }) :
    Good (appendField w c name f) := by
  obtain ⟨f1, f2, f3⟩ := fresh_one hb
  have hlen : (appendField w c name f).objs.length = w.objs.length := by
    show (setup w.objs name c (className w c) f.obj).length = _
    exact setupAll_length c (className w c) [(name, f)] w.objs
  have hcases : ∀ cl ∈ (appendField w c name f).classes, ∃ cl' ∈ w.classes, cl.validators = cl'.validators ∧ (cl.fields = cl'.fields ∨ cl.fields = cl'.fields.set name f) := by
    intro cl hcl
    obtain ⟨i, hi⟩ := List.getElem?_of_mem hcl
    rw [appendField_classes] at hi
    split at hi
    · cases hc : w.classes[i]? with
      | none => rw [hc] at hi; cases hi
      | some cl' => rw [hc] at hi; cases hi; exact ⟨cl', List.mem_of_getElem? hc, rfl, .inr rfl⟩
    · exact ⟨cl, List.mem_of_getElem? hi, rfl, .inl rfl⟩
  have hobj : ∀ o ∈ (appendField w c name f).objs, ∃ o' ∈ w.objs, o'.inners = o.inners := by
    intro o ho
    obtain ⟨i, hi⟩ := List.getElem?_of_mem ho
    rw [appendField_objs w c name f f3] at hi
    cases hj : w.objs[i]? with
    | none => rw [hj] at hi; simp at hi
    | some o' =>
      refine ⟨o', List.mem_of_getElem? hj, ?_⟩
      rw [hj] at hi
      split at hi
      · cases hi; rfl
      · split at hi <;> (cases hi; rfl)
  have hmem : ∀ cl ∈ (appendField w c name f).classes, ∀ kf ∈ cl.fields, kf = (name, f) ∨ ∃ cl' ∈ w.classes, kf ∈ cl'.fields := by
    intro cl hcl kf hkf
    obtain ⟨cl', h1, -, h2 | h2⟩ := hcases cl hcl
    · exact .inr ⟨cl', h1, h2 ▸ hkf⟩
    · rw [h2] at hkf
      rcases mem_set (hg.nodup cl' h1) hkf with h | h
      · exact .inl h
      · exact .inr ⟨cl', h1, h⟩
  refine ⟨?_, ?_, ?_, ?_, ?_⟩
  · intro cl hcl
    obtain ⟨cl', h1, -, h2 | h2⟩ := hcases cl hcl
    · rw [h2]; exact hg.nodup cl' h1
    · rw [h2]; exact Dict.nodup_set (hg.nodup cl' h1) _ _
  · intro cl hcl
    obtain ⟨cl', h1, h2, -⟩ := hcases cl hcl
    rw [h2]; exact hg.nodupV cl' h1
  · intro cl hcl kf hkf
    rw [hlen]
    rcases hmem cl hcl kf hkf with rfl | ⟨cl', h1, h2⟩
    · exact f1
    · exact hg.valid cl' h1 kf h2
  · intro o ho j hj
    obtain ⟨o', h1, h2⟩ := hobj o ho
    rw [hlen]
    exact hg.inner o' h1 j (h2 ▸ hj)
  · intro cl hcl kf hkf o ho
    obtain ⟨o', h1, h2⟩ := hobj o ho
    rw [← h2]
    rcases hmem cl hcl kf hkf with rfl | ⟨cl', h3, h4⟩
    · exact f3 o' h1
    · exact hg.noInner cl' h3 kf h4 o' h1

/-- Every world a program can reach is well-formed, so the theorems above apply to it. -/
theorem good_of_reach {w : World τ σ ρ ν} (h : Reach w) : Good w := by
  induction h with
  | start => exact ⟨by simp, by simp, by simp, by simp, by simp⟩
  | alloc o h ht hin ih =>
    refine ⟨ih.nodup, ih.nodupV, ?_, ?_, ?_⟩
    · intro c hc kf hkf
      have := ih.valid c hc kf hkf
      simp only [List.length_append, List.length_cons, List.length_nil]; omega
    · intro o' ho' j hj
      simp only [List.mem_append, List.mem_singleton, List.length_append, List.length_cons, List.length_nil] at ho' ⊢
      rcases ho' with h | rfl
      · have := ih.inner o' h j hj; omega
      · have := (hin j hj).1; omega
    · intro c hc kf hkf o' ho'
      simp only [List.mem_append, List.mem_singleton] at ho'
      rcases ho' with h | rfl
      · exact ih.noInner c hc kf hkf o' h
      · intro hm; exact (hin _ hm).2 c hc kf hkf rfl
  | define name bases body h hb ih => exact good_define _ ih name bases body hb
  | append c name f h hc hb ih => exact good_append _ ih c name f hb

/-- Histories that continue a history. -/
inductive Later : World τ σ ρ ν → World τ σ ρ ν → Prop
  | refl (w : World τ σ ρ ν) : Later w w
  | alloc {w w' : World τ σ ρ ν} (o : TypeObj τ) (h : Later w w') (ht : o.target = none) (hin : ∀ j ∈ o.inners, j < w'.objs.length ∧ ∀ c ∈ w'.classes, ∀ kf ∈ c.fields, kf.2.obj ≠ j) :
      Later w { w' with objs := w'.objs ++ [o] }
  | define {w w' : World τ σ ρ ν} (name : String) (bases : List Nat) (body : Body σ ρ ν) (h : Later w w') (hb : Fresh w' body) : Later w (define w' name bases body)

/-- **C72, histories**: whatever types and classes are defined later, an existing class keeps its schema, and its fields keep their definition, name and
owner. -/
theorem C72_history {w w' : World τ σ ρ ν} (hr : Reach w) (h : Later w w') (c : Nat) (cl : Class σ ρ ν) (hc : w.classes[c]? = some cl) :
    w'.classes[c]? = some cl ∧ ∀ kf ∈ cl.fields, w'.objs[kf.2.obj]? = w.objs[kf.2.obj]? := by
  have key : Reach w' ∧ w'.classes[c]? = some cl ∧ ∀ kf ∈ cl.fields, w'.objs[kf.2.obj]? = w.objs[kf.2.obj]? := by
    induction h with
    | refl => exact ⟨hr, hc, fun _ _ => rfl⟩
    | alloc o h ht hin ih =>
      obtain ⟨i1, i2, i3⟩ := ih
      refine ⟨.alloc o i1 ht hin, i2, fun kf hkf => ?_⟩
      have := (good_of_reach i1).valid cl (List.mem_of_getElem? i2) kf hkf
      rw [← i3 kf hkf]
      exact List.getElem?_append_left this
    | define name bases body h hb ih =>
      obtain ⟨i1, i2, i3⟩ := ih
      have hlt := (List.getElem?_eq_some_iff.1 i2).1
      refine ⟨.define name bases body i1 hb, ?_, fun kf hkf => ?_⟩
      · rw [C72_schemas _ _ _ _ _ hlt, i2]
      · rw [C72_fields _ (good_of_reach i1) name bases body hb cl (List.mem_of_getElem? i2) kf hkf, i3 kf hkf]
  exact key.2

/-! ## Witnesses -/

/-- Type objects: 0 `StringType()`, 1 `ListType` of it, 2 `IntType()`, 3 another `IntType()`. -/
def sampleObjs : List (TypeObj String) :=
  [{ spec := "string", hint := 0 }, { spec := "list", hint := 1, inners := [0] }, { spec := "int", hint := 2 }, { spec := "int!", hint := 3 }]

/-- The types exist, no class yet. -/
def sample0 : World String String String String := { objs := sampleObjs }

/-- `class A(Model): tags = ListType(StringType)`; `class B(A): class Options: serialize_when_none = False`. -/
def sampleA : World String String String String := define sample0 "A" [] { fields := [("tags", { obj := 1 })] }
/-- See `sampleA`. -/
def sampleB : World String String String String := define sampleA "B" [0] { options := some { serializeWhenNone := some (some false) } }

/-- **C29, the arguments of a type**: for a type constructed with the arguments `export_level` and `serialize_when_none`, the effective level is
that of the export call; else `export_level`; else 10 (DEFAULT) for `serialize_when_none=True` and 1 (NONEMPTY) for `False`; else that of the
options of the owner's class; and 10 if the type belongs to no class.  (For the options of a class it is the other way round: there
`serialize_when_none` wins over `export_level`, see `C71_options`.) -/
theorem C29_type_arguments (w : World τ σ ρ ν) (i : Nat) (o : TypeObj τ) (ho : w.objs[i]? = some o) (el : Option Nat) (swn : Option Bool)
    (hl : o.level = setLevel el swn) :
    (∀ l, exportLevel w i (some l) = some l) ∧
    (∀ l, el = some l → exportLevel w i none = some l) ∧
    (el = none → swn = some true → exportLevel w i none = some 10) ∧
    (el = none → swn = some false → exportLevel w i none = some 1) ∧
    (el = none → swn = none → ∀ n c, o.owner = some n → w.classes[n]? = some c → exportLevel w i none = some c.options.exportLevel) ∧
    (el = none → swn = none → o.owner = none → exportLevel w i none = some 10) := by
  unfold exportLevel
  rw [ho]
  simp only [hl]
  refine ⟨fun l => rfl, ?_, ?_, ?_, ?_, ?_⟩
  · rintro l rfl; rfl
  · rintro rfl rfl; rfl
  · rintro rfl rfl; rfl
  · rintro rfl rfl n c h1 h2; simp [setLevel, h1, h2]
  · rintro rfl rfl h1; simp [setLevel, h1]

/-- **C72, the items of a list**: at the effective level `l` of its element type, an exported list of plain values has no items at level 0 (DROP), loses its `None`
items at the levels 1 and 2 (NONEMPTY, NOT_NONE), and is complete at every higher level; so whenever a class definition leaves that level unchanged
(`C72_levels`) and the list type is no field of the new class's body, it leaves the exported items unchanged. -/
theorem C72_items (w : World τ σ ρ ν) (list i : Nat) (rest : List Nat) (o : TypeObj τ) (ho : w.objs[list]? = some o) (hi : o.inners = i :: rest) (ctx : Option Nat) (l : Nat)
    (hl : exportLevel w i ctx = some l) (shaped : List (Option String)) :
    (l = 0 → exportItems w list ctx shaped = []) ∧
    (l = 1 ∨ l = 2 → exportItems w list ctx shaped = shaped.filter Option.isSome) ∧
    (2 < l → exportItems w list ctx shaped = shaped) ∧
    (∀ w' : World τ σ ρ ν, (∃ o', w'.objs[list]? = some o' ∧ o'.inners = o.inners) → exportLevel w' i ctx = exportLevel w i ctx →
      exportItems w' list ctx shaped = exportItems w list ctx shaped) := by
  have e : ∀ w' : World τ σ ρ ν, (∃ o', w'.objs[list]? = some o' ∧ o'.inners = o.inners) → exportLevel w' i ctx = exportLevel w i ctx →
      exportItems w' list ctx shaped = if l = 0 then [] else shaped.filter fun v => v.isSome || !decide (l ≤ 2) := by
    rintro w' ⟨o', h1, h2⟩ h3
    unfold exportItems
    rw [h1]
    simp only [h2, hi, h3, hl]
  have e0 := e w ⟨o, ho, rfl⟩ rfl
  refine ⟨?_, ?_, ?_, ?_⟩
  · intro h; rw [e0, if_pos h]
  · intro h
    rw [e0, if_neg (by omega)]
    congr 1
    funext v
    have : l ≤ 2 := by omega
    simp [this]
  · intro h
    rw [e0, if_neg (by omega)]
    have : ¬ l ≤ 2 := by omega
    simp [this]
  · intro w' h1 h2; rw [e w' h1 h2, e0]

/-- **C72, counterexample**: defining the subclass `B` changes what the parent `A` exports for its list `[None, 'x']`. -/
theorem C72_counterexample : exportItems sampleA 1 none [none, some "x"] = [none, some "x"] ∧ exportItems sampleB 1 none [none, some "x"] = [some "x"] := by decide

/-- `class A: x`, `class B(A): x` redefined, `class C(A)`, `class D(C, B)`. -/
def sampleDiamond : World String String String String :=
  let w := define sample0 "A" [] { fields := [("x", { obj := 2 })] }
  let w := define w "B" [0] { fields := [("x", { obj := 3 })] }
  let w := define w "C" [0] {}
  define w "D" [2, 1] {}

/-- **C71, counterexample to the method resolution order**: fields do not follow Python's method resolution order `D, C, B, A`, in which `B`'s redefinition of `x` comes before `A`'s: `D` has the
`x` of `A`. -/
theorem C71_not_mro : ((sampleDiamond.classes[3]?).bind fun c => (c.fields.get? "x").bind fun f => (look sampleDiamond.objs f).map Prod.fst) = some "int" := by
  decide

/-- **C71, counterexample to merging**: the roles of several bases are not merged: `class C(A, B)` has only the roles of `A`. -/
theorem C71_roles_not_merged :
    let w : World String String String String := define sample0 "A" [] { options := some { roles := some [("a", "1")] } }
    let w := define w "B" [] { options := some { roles := some [("b", "2")] } }
    let w := define w "C" [0, 1] {}
    (w.classes[2]?).map (fun c => c.options.roles.keys) = some ["a"] := by decide

/-! ## The hypotheses are met -/

theorem reach_sample0 : Reach sample0 :=
  .alloc (w := { objs := sampleObjs.take 3 }) { spec := "int!", hint := 3 }
    (.alloc (w := { objs := sampleObjs.take 2 }) { spec := "int", hint := 2 }
      (.alloc (w := { objs := sampleObjs.take 1 }) { spec := "list", hint := 1, inners := [0] }
        (.alloc (w := {}) { spec := "string", hint := 0 } .start rfl (by simp)) rfl (by simp [sampleObjs])) rfl (by simp)) rfl (by simp)

theorem fresh_sampleA : Fresh sample0 { fields := [("tags", { obj := 1 })] } :=
  ⟨by simp [Dict.Nodup], by simp [Dict.Nodup], by simp, by simp [sample0, sampleObjs], by simp [sample0], by simp [sample0, sampleObjs]⟩

theorem fresh_sampleB : Fresh sampleA { options := some { serializeWhenNone := some (some false) } } :=
  ⟨by simp [Dict.Nodup], by simp [Dict.Nodup], by simp, by simp, by simp, by simp⟩

example : Reach sampleB := .define _ _ _ (.define _ _ _ reach_sample0 fresh_sampleA) fresh_sampleB
example : Later sampleA sampleB := .define _ _ _ (.refl _) fresh_sampleB
example : ((newClass sampleA "B" [0] { options := some { serializeWhenNone := some (some false) } }).fields.get? "tags").bind (look sampleB.objs) =
    some ("list", 1, none, [0], none) :=
  C71_fields sampleA (good_of_reach (.define _ _ _ reach_sample0 fresh_sampleA)) "B" [0] _ fresh_sampleB "tags"

example : exportLevel sampleB 0 none = some 1 :=
  (C29_type_arguments sampleB 0 { spec := "string", hint := 0, owner := some 1 } rfl none none rfl).2.2.2.2.1 rfl rfl 1 _ rfl rfl

example : exportItems sampleB 1 none [none, some "x"] = [some "x"] :=
  (C72_items sampleB 1 0 [] { spec := "list", hint := 1, inners := [0], name := some "tags", owner := some 0 } rfl rfl none 1 rfl _).2.1 (.inl rfl)

end Verif.Lib.Meta
