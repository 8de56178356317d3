import Verif.Props.Export
import Verif.Props.Poly

/-!
# C27, C30, C66: what is exported inside lists, dicts and nested models
-/
namespace Verif

/-- The level in force for the elements of a compound field: that of the call, else that of the element type, else that of the model that owns the
field. -/
inductive ElementLevel (ctx : ECtx) (owner : Nat) (inner : Field) : Nat → Prop
  | call {l} : ctx.level = some l → ElementLevel ctx owner inner l
  | element {l} : ctx.level = none → inner.o.exportLevel = some l → ElementLevel ctx owner inner l
  | model : ctx.level = none → inner.o.exportLevel = none → ElementLevel ctx owner inner owner

/-- An exported element is shown at level `l`: never at `DROP`; `None` only above `NOT_NONE`; an empty list, dict or nested model only above
`NONEMPTY`; everything else always. -/
structure ElementShown (l : Nat) (inner : Field) (w : Val) : Prop where
  drop : l ≠ DROP
  null : w = .none → l > NOT_NONE
  empty : w ≠ .none → inner.ty.isCompound = true → pyLen w = 0 → l > NONEMPTY

/-- `ys` is the list of what the elements of `xs` are exported as, in order, with those that are not shown left out. -/
inductive ExportedAs {α β : Type} (exp : α → β → Prop) (shown : β → Prop) : List α → List β → Prop
  | nil : ExportedAs exp shown [] []
  | keep {x y xs ys} : exp x y → shown y → ExportedAs exp shown xs ys → ExportedAs exp shown (x :: xs) (y :: ys)
  | leave {x y xs ys} : exp x y → ¬ shown y → ExportedAs exp shown xs ys → ExportedAs exp shown (x :: xs) ys

theorem elementLevel_iff (ctx : ECtx) (owner : Nat) (inner : Field) (l : Nat) : ElementLevel ctx owner inner l ↔ exportLevelOf ctx owner inner = l := by
  unfold exportLevelOf
  constructor
  · intro h
    cases h with
    | call h => rw [h]
    | element h h' => rw [h, h']; rfl
    | model h h' => rw [h, h']; rfl
  · intro h
    cases hc : ctx.level with
    | some l' => rw [hc] at h; exact .call (hc.trans (congrArg some h))
    | none =>
      rw [hc] at h
      cases hf : inner.o.exportLevel with
      | some l' => rw [hf] at h; exact .element hc (hf.trans (by rw [← h]; rfl))
      | none => rw [hf] at h; simp at h; subst h; exact .model hc hf

theorem shown_iff (l : Nat) (inner : Field) (w : Val) (hl : l ≠ DROP) : ElementShown l inner w ↔ hiddenItem l inner w = false := by
  have e : ∀ w : Val, w ≠ .none → hiddenItem l inner w = (emptyCompound inner w && decide (l ≤ NONEMPTY)) := by
    intro w hw
    cases w <;> first | rfl | exact absurd rfl hw
  by_cases hw : w = .none
  · subst hw
    have e' : hiddenItem l inner .none = decide (l ≤ NOT_NONE) := rfl
    rw [e', decide_eq_false_iff_not]
    constructor
    · intro h; have := h.null rfl; omega
    · intro h; exact ⟨hl, fun _ => by omega, fun h' => absurd rfl h'⟩
  · rw [e w hw]
    unfold emptyCompound
    constructor
    · intro h
      cases hc : inner.ty.isCompound with
      | false => simp
      | true =>
        by_cases h0 : pyLen w = 0
        · have := h.empty hw hc h0
          simp only [h0, Bool.true_and, decide_eq_false_iff_not, beq_self_eq_true]; omega
        · simp [h0]
    · intro h
      refine ⟨hl, fun h' => absurd h' hw, ?_⟩
      intro _ hc h0
      rw [hc, h0] at h
      simp only [Bool.true_and, decide_eq_false_iff_not, beq_self_eq_true] at h
      omega

theorem exportItems_iff (f : Val → R Val) (l : Nat) (inner : Field) (hl : l ≠ DROP) : ∀ (xs ys : List Val),
    exportItems f (hiddenItem l inner) xs = .ok ys ↔ ExportedAs (fun x y => f x = .ok y) (ElementShown l inner) xs ys := by
  intro xs
  induction xs with
  | nil =>
    intro ys
    constructor
    · intro h; cases h; exact .nil
    · intro h; cases h; rfl
  | cons x xs ih =>
    intro ys
    unfold exportItems
    cases hx : f x with
    | error e =>
      constructor
      · intro h; cases h
      · intro h
        cases h with
        | keep h1 _ _ => rw [hx] at h1; cases h1
        | leave h1 _ _ => rw [hx] at h1; cases h1
    | ok y =>
      simp only []
      cases hr : exportItems f (hiddenItem l inner) xs with
      | error e =>
        constructor
        · intro h; cases h
        · intro h
          cases h with
          | keep _ _ h3 => rw [(ih _).2 h3] at hr; cases hr
          | leave _ _ h3 => rw [(ih _).2 h3] at hr; cases hr
      | ok ys' =>
        simp only []
        by_cases hh : hiddenItem l inner y = true
        · rw [if_pos hh]
          constructor
          · intro h; cases h
            exact .leave hx (by rw [shown_iff l inner y hl, hh]; simp) ((ih _).1 hr)
          · intro h
            cases h with
            | keep h1 h2 h3 =>
              rw [hx] at h1; cases h1
              rw [shown_iff l inner y hl, hh] at h2; cases h2
            | leave h1 h2 h3 => rw [(ih _).2 h3] at hr; cases hr; rfl
        · rw [if_neg hh]
          have hh' : hiddenItem l inner y = false := by simpa using hh
          constructor
          · intro h; cases h
            exact .keep hx ((shown_iff l inner y hl).2 hh') ((ih _).1 hr)
          · intro h
            cases h with
            | keep h1 h2 h3 =>
              rw [hx] at h1; cases h1
              rw [(ih _).2 h3] at hr; cases hr; rfl
            | leave h1 h2 h3 =>
              rw [hx] at h1; cases h1
              exact absurd ((shown_iff l inner y hl).2 hh') h2

theorem exportPairs_iff (f : Val → R Val) (l : Nat) (inner : Field) (hl : l ≠ DROP) : ∀ (xs ys : List (Key × Val)),
    exportPairs f (hiddenItem l inner) xs = .ok ys ↔
      ExportedAs (fun x y => y.1 = x.1 ∧ f x.2 = .ok y.2) (fun y => ElementShown l inner y.2) xs ys := by
  intro xs
  induction xs with
  | nil =>
    intro ys
    constructor
    · intro h; cases h; exact .nil
    · intro h; cases h; rfl
  | cons x xs ih =>
    obtain ⟨k, x⟩ := x
    intro ys
    unfold exportPairs
    cases hx : f x with
    | error e =>
      constructor
      · intro h; cases h
      · intro h
        cases h with
        | keep h1 _ _ => rw [hx] at h1; cases h1.2
        | leave h1 _ _ => rw [hx] at h1; cases h1.2
    | ok y =>
      simp only []
      cases hr : exportPairs f (hiddenItem l inner) xs with
      | error e =>
        constructor
        · intro h; cases h
        · intro h
          cases h with
          | keep _ _ h3 => rw [(ih _).2 h3] at hr; cases hr
          | leave _ _ h3 => rw [(ih _).2 h3] at hr; cases hr
      | ok ys' =>
        simp only []
        by_cases hh : hiddenItem l inner y = true
        · rw [if_pos hh]
          constructor
          · intro h; cases h
            exact .leave (y := (k, y)) ⟨rfl, hx⟩ (by rw [shown_iff l inner y hl, hh]; simp) ((ih _).1 hr)
          · intro h
            cases h with
            | @keep _ y' _ _ h1 h2 h3 =>
              obtain ⟨k', y'⟩ := y'
              rw [hx] at h1
              obtain ⟨e1, e2⟩ := h1
              simp only [Except.ok.injEq] at e2
              subst e2
              rw [shown_iff l inner _ hl, hh] at h2; cases h2
            | leave h1 h2 h3 => rw [(ih _).2 h3] at hr; cases hr; rfl
        · rw [if_neg hh]
          have hh' : hiddenItem l inner y = false := by simpa using hh
          constructor
          · intro h; cases h
            exact .keep (y := (k, y)) ⟨rfl, hx⟩ ((shown_iff l inner y hl).2 hh') ((ih _).1 hr)
          · intro h
            cases h with
            | @keep _ y' _ _ h1 h2 h3 =>
              obtain ⟨k', y'⟩ := y'
              rw [hx] at h1
              obtain ⟨e1, e2⟩ := h1
              cases e1; cases e2
              rw [(ih _).2 h3] at hr; cases hr; rfl
            | @leave _ y' _ _ h1 h2 h3 =>
              obtain ⟨k', y'⟩ := y'
              rw [hx] at h1
              obtain ⟨e1, e2⟩ := h1
              simp only [Except.ok.injEq] at e2
              subst e2
              exact absurd ((shown_iff l inner _ hl).2 hh') h2

/-- **C27.** The export of a list: nothing but an empty list if the elements' level is `DROP`; otherwise every element is exported, in order, and only
those are left out whose exported value is not shown at that level. -/
theorem C27_list_items (env : Env) (n : Nat) (ctx : ECtx) (owner : Nat) (inner : Field) (mn mx : Option Nat) (o : FieldOpts) (l : Nat)
    (hl : ElementLevel ctx owner inner l) (xs : List Val) (w : Val) :
    fieldExport env ctx (n + 1) owner (.mk (.list inner mn mx) o) (.list xs) = .ok w ↔
      (l = DROP ∧ w = .list []) ∨
      (l ≠ DROP ∧ ∃ ys, w = .list ys ∧ ExportedAs (fun x y => fieldExport env ctx n owner inner x = .ok y) (ElementShown l inner) xs ys) := by
  have hl' := (elementLevel_iff ctx owner inner l).1 hl
  have e : fieldExport env ctx (n + 1) owner (.mk (.list inner mn mx) o) (.list xs) =
      if l = DROP then .ok (.list [])
      else match exportItems (fieldExport env ctx n owner inner) (hiddenItem l inner) xs with
        | .error e => .error e
        | .ok ys => .ok (.list ys) := by
    simp only [fieldExport, exportF, Field.ty, iterItems, hl']
    rfl
  rw [e]
  by_cases h0 : l = DROP
  · rw [if_pos h0]
    constructor
    · intro h; cases h; exact Or.inl ⟨h0, rfl⟩
    · rintro (⟨-, rfl⟩ | ⟨h, -⟩)
      · rfl
      · exact absurd h0 h
  · rw [if_neg h0]
    have key := exportItems_iff (fieldExport env ctx n owner inner) l inner h0 xs
    constructor
    · intro h
      cases hr : exportItems (fieldExport env ctx n owner inner) (hiddenItem l inner) xs with
      | error e => rw [hr] at h; cases h
      | ok ys =>
        rw [hr] at h; cases h
        exact Or.inr ⟨h0, ys, rfl, (key ys).1 hr⟩
    · rintro (⟨h, -⟩ | ⟨-, ys, rfl, hy⟩)
      · exact absurd h h0
      · rw [(key ys).2 hy]

/-- **C27.** The export of a dict: the same for its values; the keys are kept. -/
theorem C27_dict_entries (env : Env) (n : Nat) (ctx : ECtx) (owner : Nat) (inner : Field) (ck : _) (o : FieldOpts) (l : Nat)
    (hl : ElementLevel ctx owner inner l) (xs : Data) (w : Val) :
    fieldExport env ctx (n + 1) owner (.mk (.dict inner ck) o) (.dict xs) = .ok w ↔
      (l = DROP ∧ w = .dict []) ∨
      (l ≠ DROP ∧ ∃ ys, w = .dict ys ∧
        ExportedAs (fun x y => y.1 = x.1 ∧ fieldExport env ctx n owner inner x.2 = .ok y.2) (fun y => ElementShown l inner y.2) xs ys) := by
  have hl' := (elementLevel_iff ctx owner inner l).1 hl
  have e : fieldExport env ctx (n + 1) owner (.mk (.dict inner ck) o) (.dict xs) =
      if l = DROP then .ok (.dict [])
      else match exportPairs (fieldExport env ctx n owner inner) (hiddenItem l inner) xs with
        | .error e => .error e
        | .ok ys => .ok (.dict ys) := by
    simp only [fieldExport, exportF, Field.ty, iterPairs, hl']
    rfl
  rw [e]
  by_cases h0 : l = DROP
  · rw [if_pos h0]
    constructor
    · intro h; cases h; exact Or.inl ⟨h0, rfl⟩
    · rintro (⟨-, rfl⟩ | ⟨h, -⟩)
      · rfl
      · exact absurd h0 h
  · rw [if_neg h0]
    have key := exportPairs_iff (fieldExport env ctx n owner inner) l inner h0 xs
    constructor
    · intro h
      cases hr : exportPairs (fieldExport env ctx n owner inner) (hiddenItem l inner) xs with
      | error e => rw [hr] at h; cases h
      | ok ys =>
        rw [hr] at h; cases h
        exact Or.inr ⟨h0, ys, rfl, (key ys).1 hr⟩
    · rintro (⟨h, -⟩ | ⟨-, ys, rfl, hy⟩)
      · exact absurd h h0
      · rw [(key ys).2 hy]

/-- **C27.** In particular, at the levels `DEFAULT` and above nothing is lost inside a list: as many elements come out as went in. -/
theorem C27_list_keeps_length (env : Env) (n : Nat) (ctx : ECtx) (owner : Nat) (inner : Field) (mn mx : Option Nat) (o : FieldOpts) (l : Nat)
    (hl : ElementLevel ctx owner inner l) (hd : l ≥ DEFAULT) (xs : List Val) (w : Val)
    (h : fieldExport env ctx (n + 1) owner (.mk (.list inner mn mx) o) (.list xs) = .ok w) :
    ∃ ys, w = .list ys ∧ ys.length = xs.length := by
  have hd' : 10 ≤ l := hd
  rcases (C27_list_items env n ctx owner inner mn mx o l hl xs w).1 h with ⟨h0, -⟩ | ⟨-, ys, rfl, hy⟩
  · rw [h0] at hd; exact absurd hd (by decide)
  · refine ⟨ys, rfl, ?_⟩
    clear h
    induction hy with
    | nil => rfl
    | keep _ _ _ ih => simp [ih]
    | leave _ h2 _ _ =>
      refine absurd ⟨?_, ?_, ?_⟩ h2
      · show l ≠ 0; omega
      · intro _; show l > 2; omega
      · intro _ _ _; show l > 1; omega

/-- **C30.** An instance in a model field is exported by the rules of its own class, which may be a subclass of the class the field names; so
everything said about the export of a model holds for it, at any depth. -/
theorem C30_nested_instance (env : Env) (n : Nat) (ctx : ECtx) (owner : Nat) (cls k : String) (o : FieldOpts) (d : Data) (c : ClassDef)
    (hc : env.cls k = some c) (w : Val) :
    fieldExport env ctx (n + 1) owner (.mk (.model cls) o) (.inst k d) = .ok w ↔ ∃ out, w = .dict out ∧ runExport env n ctx c (.inst d) = .ok out := by
  have e : fieldExport env ctx (n + 1) owner (.mk (.model cls) o) (.inst k d) = exportModel (fieldExport env ctx n) ctx c (.inst d) := by
    simp only [fieldExport, exportF, Field.ty, hc]
  rw [e]
  unfold exportModel runExport
  cases hr : exportLoop (fieldExport env ctx n) ctx c (.inst d) with
  | error e => simp
  | ok out =>
    simp only [Except.ok.injEq]
    constructor
    · intro h; exact ⟨out, h.symm, rfl⟩
    · rintro ⟨_, rfl, rfl⟩; rfl

/-- A dict in a model field is exported by the rules of the class the field names. -/
theorem C30_nested_dict (env : Env) (n : Nat) (ctx : ECtx) (owner : Nat) (cls : String) (o : FieldOpts) (d : Data) (c : ClassDef)
    (hc : env.cls cls = some c) (w : Val) :
    fieldExport env ctx (n + 1) owner (.mk (.model cls) o) (.dict d) = .ok w ↔ ∃ out, w = .dict out ∧ runExport env n ctx c (.map d) = .ok out := by
  have e : fieldExport env ctx (n + 1) owner (.mk (.model cls) o) (.dict d) = exportModel (fieldExport env ctx n) ctx c (.map d) := by
    simp only [fieldExport, exportF, Field.ty, hc]
  rw [e]
  unfold exportModel runExport
  cases hr : exportLoop (fieldExport env ctx n) ctx c (.map d) with
  | error e => simp
  | ok out =>
    simp only [Except.ok.injEq]
    constructor
    · intro h; exact ⟨out, h.symm, rfl⟩
    · rintro ⟨_, rfl, rfl⟩; rfl

/-- An instance whose class a polymorphic field accepts: one of the listed classes or, with `allow_subclasses`, one that derives from a listed one. -/
def AcceptedClass (p : PolySpec) (env : Env) (k : String) : Prop :=
  if p.allowSub = true then ∃ m ∈ p.classes, env.isSub k m = true else k ∈ p.classes

/-- **C66.** Export of a polymorphic field: an instance of an accepted class is exported by the rules of its own class, and nothing else is exported
at all — neither an instance of another class nor a mapping. -/
theorem C66_export (env : Env) (n : Nat) (ctx : ECtx) (owner : Nat) (p : PolySpec) (o : FieldOpts) (v w : Val) :
    fieldExport env ctx (n + 1) owner (.mk (.poly p) o) v = .ok w ↔
      ∃ k d c out, v = .inst k d ∧ AcceptedClass p env k ∧ env.cls k = some c ∧ w = .dict out ∧ runExport env n ctx c (.inst d) = .ok out := by
  have ha : ∀ k d, p.allowed env (.inst k d) = true ↔ AcceptedClass p env k := by
    intro k d
    unfold PolySpec.allowed AcceptedClass
    by_cases h : p.allowSub = true
    · simp only [h, if_true, List.any_eq_true]
    · simp [h]
  have e : fieldExport env ctx (n + 1) owner (.mk (.poly p) o) v = exportF (fieldExport env ctx n) env ctx owner (.mk (.poly p) o) v := rfl
  rw [e]
  unfold exportF
  simp only [Field.ty]
  by_cases hv : p.allowed env v = true
  · rw [if_pos hv]
    cases v with
    | inst k d =>
      simp only []
      cases hc : env.cls k with
      | none =>
        constructor
        · intro h; cases h
        · rintro ⟨k', d', c, out, e', -, h2, -⟩
          cases e'; rw [hc] at h2; cases h2
      | some c =>
        simp only []
        unfold exportModel runExport
        cases hr : exportLoop (fieldExport env ctx n) ctx c (.inst d) with
        | error e =>
          constructor
          · intro h; cases h
          · rintro ⟨k', d', c', out, e', -, h2, -, h4⟩
            cases e'; rw [hc] at h2; cases h2; rw [hr] at h4; cases h4
        | ok out =>
          constructor
          · intro h; cases h
            exact ⟨k, d, c, out, rfl, (ha k d).1 hv, hc, rfl, hr⟩
          · rintro ⟨k', d', c', out', e', -, h2, rfl, h4⟩
            cases e'; rw [hc] at h2; cases h2; rw [hr] at h4; cases h4; rfl
    | _ => cases hv
  · rw [if_neg hv]
    constructor
    · intro h; cases h
    · rintro ⟨k, d, c, out, rfl, h1, -⟩
      exact absurd ((ha k d).2 h1) hv

/-! The hypotheses are met. -/

/-- A list with a missing element, exported at two levels. -/
example : fieldExport Samples.env { level := some NOT_NONE } 2 DEFAULT (.mk (.list Samples.intF none none) {}) (.list [.int 1, .none, .int 2]) =
    .ok (.list [.int 1, .int 2]) := rfl
example : fieldExport Samples.env {} 2 DEFAULT (.mk (.list Samples.intF none none) {}) (.list [.int 1, .none, .int 2]) =
    .ok (.list [.int 1, .none, .int 2]) := rfl
example : ElementLevel { level := some NOT_NONE } DEFAULT Samples.intF NOT_NONE := .call rfl
example : ElementLevel {} DEFAULT Samples.intF DEFAULT := .model rfl rfl

end Verif
