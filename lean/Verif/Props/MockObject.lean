import Verif.Lib.MockObject
import Mathlib.Data.Finset.Card
import Mathlib.Data.Finset.Basic

/-!
# C77: mock objects
-/
namespace Verif.Lib.MockObject

/-- The classes that a type refers to. -/
def Closed (cls : Classes) (n : Nat) : Prop := ∀ c < n, ∀ f ∈ cls c, ∀ d, f.ty.modelClass = some d → d < n

/-- The type, and what is inside it, leaves room for mock values. -/
def Ty.Mockable : Ty → Prop
  | .leaf ok => ok = true
  | .model _ => True
  | .list t ok => ok = true ∧ t.Mockable
  | .dict _ => True

/-- How many of the first `n` classes are not in the memo. -/
def unseen (n : Nat) (memo : Memo) : Nat := ((Finset.range n).filter fun c => c ∉ memo).card

theorem unseen_mono {n : Nat} {m m' : Memo} (h : ∀ c ∈ m, c ∈ m') : unseen n m' ≤ unseen n m := by
  refine Finset.card_le_card ?_
  intro c hc
  simp only [Finset.mem_filter] at hc ⊢
  exact ⟨hc.1, fun h' => hc.2 (h c h')⟩

theorem unseen_cons {n : Nat} {m : Memo} {c : Nat} (hc : c < n) (h : c ∉ m) : unseen n (c :: m) < unseen n m := by
  refine Finset.card_lt_card ?_
  rw [Finset.ssubset_iff_of_subset]
  · exact ⟨c, by simp [hc, h], by simp⟩
  · intro x hx
    simp only [Finset.mem_filter, List.mem_cons, not_or] at hx ⊢
    exact ⟨hx.1, hx.2.2⟩

theorem visit_sub (c : Nat) (memo : Memo) : ∀ d ∈ memo, d ∈ visit c memo := by
  intro d hd; unfold visit; split <;> simp [hd]

theorem visit_mem (c : Nat) (memo : Memo) : c ∈ visit c memo := by
  unfold visit; split
  · assumption
  · simp

theorem visit_mono (c : Nat) {m m' : Memo} (h : ∀ d ∈ m, d ∈ m') : ∀ d ∈ visit c m, d ∈ visit c m' := by
  intro d hd
  unfold visit at hd
  split at hd
  · exact visit_sub c m' d (h d hd)
  · rcases List.mem_cons.1 hd with rfl | hd
    · exact visit_mem _ m'
    · exact visit_sub c m' d (h d hd)

/-- The outcome is within the fuel if `T`, a result only adds to the memo, an exception satisfies `E`. -/
structure Fine (T : Prop) (E : MErr → Prop) (m : Memo) {α : Type} (o : Out (α × Memo)) : Prop where
  fuel : T → o ≠ .fuel
  raise : ∀ e, o = .raise e → E e
  sub : ∀ a m', o = .ok (a, m') → ∀ d ∈ m, d ∈ m'

theorem Fine.ok {T : Prop} {E : MErr → Prop} {m m' : Memo} {α : Type} {a : α} (h : ∀ d ∈ m, d ∈ m') : Fine T E m (.ok (a, m')) :=
  ⟨fun _ => nofun, nofun, fun _ _ he => by cases he; exact h⟩

theorem Fine.err {T : Prop} {E : MErr → Prop} {m : Memo} {α : Type} {e : MErr} (h : E e) : Fine T E m (.raise e : Out (α × Memo)) :=
  ⟨fun _ => nofun, fun _ he => by cases he; exact h, nofun⟩

theorem Fine.out {T : Prop} {E : MErr → Prop} {m : Memo} {α : Type} (h : ¬ T) : Fine T E m (.fuel : Out (α × Memo)) :=
  ⟨fun t => absurd t h, nofun, nofun⟩

theorem mockItems_fine {E : MErr → Prop} (T : Memo → Prop) (hT : ∀ m m', (∀ d ∈ m, d ∈ m') → T m → T m') {f : Nat → Memo → Out (MVal × Memo)}
    (hf : ∀ i m, Fine (T m) E m (f i m)) : ∀ n m, Fine (T m) E m (mockItems f n m)
  | 0, m => Fine.ok fun _ h => h
  | n + 1, m => by
    have h1 := hf n m
    rw [mockItems]
    cases hx : f n m with
    | fuel => exact Fine.out fun t => h1.fuel t hx
    | raise e => exact Fine.err (h1.raise e hx)
    | ok p =>
      obtain ⟨x, m1⟩ := p
      have hs := h1.sub x m1 hx
      have h2 := mockItems_fine T hT hf n m1
      dsimp only
      cases hy : mockItems f n m1 with
      | fuel => exact Fine.out fun t => h2.fuel (hT m m1 hs t) hy
      | raise e => exact Fine.err (h2.raise e hy)
      | ok q =>
        obtain ⟨xs, m2⟩ := q
        exact Fine.ok fun d hd => h2.sub xs m2 hy d (hs d hd)

theorem mockTy_fine {E : MErr → Prop} {rec : List Nat → Nat → Memo → Out (MVal × Memo)} {rnd : Rnd} {n K : Nat}
    (hrec : ∀ p c m, Fine (c < n ∧ unseen n (visit c m) < K) E m (rec p c m)) :
    ∀ (t : Ty) (_ : t.Mockable ∨ E .mock) (p : List Nat) (m : Memo),
      Fine (∀ d, t.modelClass = some d → d < n ∧ unseen n (visit d m) < K) E m (mockTy rec rnd p t m)
  | .leaf true, _, p, m => Fine.ok fun _ h => h
  | .leaf false, hE, p, m => Fine.err (hE.resolve_left fun h => by cases h)
  | .dict t, _, p, m => Fine.ok fun _ h => h
  | .list t false, hE, p, m => Fine.err (hE.resolve_left fun h => by cases h.1)
  | .model c, _, p, m => by
    have h := hrec p c m
    exact ⟨fun t => h.fuel (t c rfl), h.raise, h.sub⟩
  | .list t true, hE, p, m => by
    have ih := fun i m => mockTy_fine (rnd := rnd) hrec t (hE.imp (fun h => h.2) id) (i :: p) m
    have hi := mockItems_fine (fun m => ∀ d, t.modelClass = some d → d < n ∧ unseen n (visit d m) < K)
      (fun m m' hs ht d hd => ⟨(ht d hd).1, lt_of_le_of_lt (unseen_mono (visit_mono d hs)) (ht d hd).2⟩) ih (rnd.length p) m
    rw [mockTy]
    cases hx : mockItems (fun i m => mockTy rec rnd (i :: p) t m) (rnd.length p) m with
    | fuel => exact Fine.out fun t => hi.fuel t hx
    | raise e => exact Fine.err (hi.raise e hx)
    | ok q =>
      obtain ⟨xs, m2⟩ := q
      exact Fine.ok (hi.sub xs m2 hx)

theorem mockField_fine {E : MErr → Prop} {rec : List Nat → Nat → Memo → Out (MVal × Memo)} {rnd : Rnd} {n K : Nat}
    (hrec : ∀ p c m, Fine (c < n ∧ unseen n (visit c m) < K) E m (rec p c m)) (f : Fld) (ht : f.ty.Mockable ∨ E .mock) (p : List Nat) (m : Memo) :
      Fine (∀ d, f.ty.modelClass = some d → d < n ∧ unseen n (visit d m) < K) E m (mockField rec rnd p f m) := by
  rw [mockField]
  split
  · exact Fine.ok fun _ h => h
  · exact mockTy_fine (rnd := rnd) hrec f.ty ht p m

/-- The loop over the fields.  `E'` is what comes out of the handler. -/
theorem mockFields_fine {E E' : MErr → Prop} {rec : List Nat → Nat → Memo → Out (MVal × Memo)} {rnd : Rnd} {n K : Nat}
    (hrec : ∀ p c m, Fine (c < n ∧ unseen n (visit c m) < K) E m (rec p c m)) (hE : ∀ e, E e → E' (handler e)) (over : String → Bool) (p : List Nat) :
    ∀ (fs : List Fld) (_ : ∀ f ∈ fs, over f.name = false → (f.ty.Mockable ∨ E .mock)) (i : Nat) (m : Memo),
      Fine ((∀ f ∈ fs, ∀ d, f.ty.modelClass = some d → d < n) ∧ unseen n m ≤ K) E' m (mockFields rec rnd over p i fs m)
  | [], _, i, m => Fine.ok fun _ h => h
  | f :: r, hm, i, m => by
    have ihr := fun i m => mockFields_fine (rnd := rnd) hrec hE over p r (fun g hg => hm g (List.mem_cons_of_mem _ hg)) i m
    rw [mockFields]
    split
    · have h := ihr (i + 1) m
      exact ⟨fun t => h.fuel ⟨fun g hg => t.1 g (List.mem_cons_of_mem _ hg), t.2⟩, h.raise, h.sub⟩
    · rename_i hs
      rw [Bool.not_eq_true, Bool.or_eq_false_iff] at hs
      have h1 := mockField_fine (rnd := rnd) hrec f (hm f (List.mem_cons_self ..) hs.1) (i :: p) m
      have hT : ((∀ g ∈ f :: r, ∀ d, g.ty.modelClass = some d → d < n) ∧ unseen n m ≤ K) →
          ∀ d, f.ty.modelClass = some d → d < n ∧ unseen n (visit d m) < K := by
        intro t d hd
        have hv := hs.2
        rw [hd] at hv
        have hdm : d ∉ m := by simpa [visited] using hv
        have hdn := t.1 f (List.mem_cons_self ..) d hd
        refine ⟨hdn, ?_⟩
        have e : visit d m = d :: m := by simp [visit, hdm]
        rw [e]
        exact lt_of_lt_of_le (unseen_cons hdn hdm) t.2
      cases hx : mockField rec rnd (i :: p) f m with
      | fuel => exact Fine.out fun t => h1.fuel (hT t) hx
      | raise e => exact Fine.err (hE e (h1.raise e hx))
      | ok q =>
        obtain ⟨v, m1⟩ := q
        have hsub := h1.sub v m1 hx
        have h2 := ihr (i + 1) m1
        dsimp only
        cases hy : mockFields rec rnd over p (i + 1) r m1 with
        | fuel => exact Fine.out fun t => h2.fuel ⟨fun g hg => t.1 g (List.mem_cons_of_mem _ hg), le_trans (unseen_mono hsub) t.2⟩ hy
        | raise e => exact Fine.err (h2.raise e hy)
        | ok q =>
          obtain ⟨vs, m2⟩ := q
          exact Fine.ok fun d hd => h2.sub vs m2 hy d (hsub d hd)

/-- `E` is what nested calls may raise: nothing, if all types leave room for mock values; else `AttributeError` only. -/
theorem mockObject_fine {cls : Classes} {rnd : Rnd} {n : Nat} (hc : Closed cls n) {E : MErr → Prop} (hE : ∀ e, E e → E (handler e))
    (hm : (∀ c, ∀ f ∈ cls c, f.ty.Mockable) ∨ E .attribute) :
    ∀ (fuel : Nat) (p : List Nat) (c : Nat) (m : Memo), Fine (c < n ∧ unseen n (visit c m) < fuel) E m (mockObject cls rnd fuel p c m)
  | 0, p, c, m => Fine.out fun t => absurd t.2 (Nat.not_lt_zero _)
  | fuel + 1, p, c, m => by
    have ih := mockObject_fine (rnd := rnd) hc hE hm fuel
    have h : Fine ((∀ f ∈ cls c, ∀ d, f.ty.modelClass = some d → d < n) ∧ unseen n (visit c m) ≤ fuel) E (visit c m)
        (mockFields (mockObject cls rnd fuel) rnd (fun _ => false) p 0 (cls c) (visit c m)) := by
      rcases hm with hm | hok
      · exact mockFields_fine (E := E) (E' := E) (rnd := rnd) ih hE (fun _ => false) p (cls c) (fun f hf _ => .inl (hm c f hf)) 0 (visit c m)
      · exact mockFields_fine (E := fun e => E e ∨ e = .mock) (E' := E) (rnd := rnd)
          (fun p c m => ⟨(ih p c m).fuel, fun e he => .inl ((ih p c m).raise e he), (ih p c m).sub⟩)
          (fun e he => he.elim (hE e) (fun h => by subst h; exact hok)) (fun _ => false) p (cls c)
          (fun f hf _ => .inr (.inr rfl)) 0 (visit c m)
    rw [mockObject]
    cases hx : mockFields (mockObject cls rnd fuel) rnd (fun _ => false) p 0 (cls c) (visit c m) with
    | fuel => exact Fine.out fun t => h.fuel ⟨fun f hf d hd => hc c t.1 f hf d hd, Nat.lt_succ_iff.1 t.2⟩ hx
    | raise e => exact Fine.err (h.raise e hx)
    | ok q =>
      obtain ⟨vs, m2⟩ := q
      exact Fine.ok fun d hd => h.sub vs m2 hx d (visit_sub c m d hd)

theorem unseen_le (n : Nat) (m : Memo) : unseen n m ≤ n := by
  unfold unseen
  exact le_trans (Finset.card_filter_le _ _) (by simp)

theorem fine_any {cls : Classes} (rnd : Rnd) {n : Nat} (hc : Closed cls n) (fuel : Nat) (p : List Nat) (c : Nat) (m : Memo) :
    Fine (c < n ∧ unseen n (visit c m) < fuel) (fun e => e = MErr.attribute) m (mockObject cls rnd fuel p c m) :=
  mockObject_fine (rnd := rnd) hc (E := fun e => e = .attribute) (fun e he => by subst he; rfl) (.inr rfl) fuel p c m

/-- Without any assumption on the classes: only `AttributeError` comes out, and the memo only grows. -/
theorem fine_all (cls : Classes) (rnd : Rnd) : ∀ (fuel : Nat) (p : List Nat) (c : Nat) (m : Memo),
    Fine False (fun e => e = MErr.attribute) m (mockObject cls rnd fuel p c m) := by
  intro fuel
  induction fuel with
  | zero => exact fun p c m => Fine.out id
  | succ fuel ih =>
    intro p c m
    have h := mockFields_fine (E := fun _ => True) (E' := fun e => e = MErr.attribute) (n := 0) (K := 0) (rnd := rnd)
      (fun p c m => ⟨fun t => absurd t.2 (Nat.not_lt_zero _), fun _ _ => trivial, (ih p c m).sub⟩) (fun e _ => by cases e <;> rfl) (fun _ => false) p (cls c)
      (fun f hf _ => .inr trivial) 0 (visit c m)
    rw [mockObject]
    cases hx : mockFields (mockObject cls rnd fuel) rnd (fun _ => false) p 0 (cls c) (visit c m) with
    | fuel => exact Fine.out id
    | raise e => exact Fine.err (h.raise e hx)
    | ok q =>
      obtain ⟨vs, m2⟩ := q
      exact Fine.ok fun d hd => h.sub vs m2 hx d (visit_sub c m d hd)

/-- **C77, termination**: for finitely many classes with arbitrary, also mutually recursive, references, every random outcome and every memo,
`get_mock_object` terminates: no nesting of calls is deeper than the number of classes plus one. -/
theorem C77_terminates (cls : Classes) (rnd : Rnd) (n : Nat) (hc : Closed cls n) (p : List Nat) (c : Nat) (hcn : c < n) (memo : Memo) :
    mockObject cls rnd (n + 1) p c memo ≠ .fuel :=
  (fine_any rnd hc (n + 1) p c memo).fuel ⟨hcn, Nat.lt_succ_of_le (unseen_le n _)⟩

/-- **C77, success**: if the bounds of all fields leave room for mock values there is a mock object, for every random outcome. -/
theorem C77_succeeds (cls : Classes) (rnd : Rnd) (n : Nat) (hc : Closed cls n) (hm : ∀ c, ∀ f ∈ cls c, f.ty.Mockable) (p : List Nat) (c : Nat) (hcn : c < n) (memo : Memo) :
    ∃ v, mockObject cls rnd (n + 1) p c memo = .ok v := by
  have h := mockObject_fine (rnd := rnd) hc (E := fun _ => False) (fun e he => he) (.inl hm) (n + 1) p c memo
  cases hx : mockObject cls rnd (n + 1) p c memo with
  | fuel => exact absurd hx (h.fuel ⟨hcn, Nat.lt_succ_of_le (unseen_le n _)⟩)
  | raise e => exact (h.raise e hx).elim
  | ok v => exact ⟨v, rfl⟩

/-- **C77, errors**: the promised `MockCreationError` never comes out of `get_mock_object`: its handler fails with `AttributeError` (on Python 3, where exceptions
have no `message`), with and without overrides. -/
theorem C77_error (cls : Classes) (rnd : Rnd) (fuel : Nat) (p : List Nat) (c : Nat) (memo : Memo) (overrides : List (String × MVal)) :
    mockObject cls rnd fuel p c memo ≠ .raise .mock ∧ mockWith cls rnd fuel c memo overrides ≠ .raise .mock := by
  refine ⟨fun h => MErr.noConfusion ((fine_all cls rnd fuel p c memo).raise .mock h), fun h => ?_⟩
  have hf := mockFields_fine (E := fun _ => True) (E' := fun e => e = MErr.attribute) (n := 0) (K := 0) (rnd := rnd)
    (fun p c m => ⟨fun t => absurd t.2 (Nat.not_lt_zero _), fun _ _ => trivial, (fine_all cls rnd fuel p c m).sub⟩) (fun e _ => by cases e <;> rfl)
    (fun n => Dict.has overrides n) [] (cls c) (fun f hf _ => .inr trivial) 0 (visit c memo)
  rw [mockWith] at h
  cases hx : mockFields (mockObject cls rnd fuel) rnd (fun n => Dict.has overrides n) [] 0 (cls c) (visit c memo) with
  | fuel => rw [hx] at h; cases h
  | raise e =>
    rw [hx] at h
    cases h
    exact MErr.noConfusion (hf.raise _ hx)
  | ok q => rw [hx] at h; cases h

/-- What the loop over the fields yields. -/
theorem mockFields_names (cls : Classes) (rnd : Rnd) (fuel : Nat) (over : String → Bool) (p : List Nat) : ∀ (fs : List Fld) (i : Nat) (m m' : Memo) (vs : List (String × MVal)),
    mockFields (mockObject cls rnd fuel) rnd over p i fs m = .ok (vs, m') →
    (∀ d ∈ m, d ∈ m') ∧
    (vs.map Prod.fst).Sublist (fs.map Fld.name) ∧
    (∀ n ∈ vs.map Prod.fst, over n = false) ∧
    (∀ f ∈ fs, over f.name = false → (∀ d, f.ty.modelClass = some d → d ∉ m') → f.name ∈ vs.map Prod.fst)
  | [], i, m, m', vs, h => by
    rw [mockFields] at h
    cases h
    exact ⟨fun _ h => h, .refl _, nofun, nofun⟩
  | f :: r, i, m, m', vs, h => by
    rw [mockFields] at h
    split at h
    · rename_i hs
      obtain ⟨i1, i2, i3, i4⟩ := mockFields_names cls rnd fuel over p r (i + 1) m m' vs h
      refine ⟨i1, i2.cons _, i3, fun g hg ho hgd => ?_⟩
      rcases List.mem_cons.1 hg with rfl | hg
      · exfalso
        rw [ho, Bool.false_or] at hs
        cases hmc : g.ty.modelClass with
        | none => rw [hmc] at hs; cases hs
        | some d =>
          rw [hmc] at hs
          exact hgd d hmc (i1 d (by simpa [visited] using hs))
      · exact i4 g hg ho hgd
    · rename_i hs
      rw [Bool.not_eq_true, Bool.or_eq_false_iff] at hs
      have h1 := mockField_fine (E := fun _ => True) (n := 0) (K := 0) (rec := mockObject cls rnd fuel) (rnd := rnd)
        (fun p c m => ⟨fun t => absurd t.2 (Nat.not_lt_zero _), fun _ _ => trivial, (fine_all cls rnd fuel p c m).sub⟩) f (.inr trivial) (i :: p) m
      cases hx : mockField (mockObject cls rnd fuel) rnd (i :: p) f m with
      | fuel => rw [hx] at h; cases h
      | raise e => rw [hx] at h; cases h
      | ok q =>
        obtain ⟨v, m1⟩ := q
        rw [hx] at h
        dsimp only at h
        cases hy : mockFields (mockObject cls rnd fuel) rnd over p (i + 1) r m1 with
        | fuel => rw [hy] at h; cases h
        | raise e => rw [hy] at h; cases h
        | ok q =>
          obtain ⟨vs1, m2⟩ := q
          rw [hy] at h
          cases h
          obtain ⟨i1, i2, i3, i4⟩ := mockFields_names cls rnd fuel over p r (i + 1) m1 m' vs1 hy
          refine ⟨fun d hd => i1 d (h1.sub v m1 hx d hd), ?_, ?_, ?_⟩
          · rw [List.map_cons, List.map_cons]; exact i2.cons_cons _
          · intro n hn
            rw [List.map_cons] at hn
            rcases List.mem_cons.1 hn with rfl | hn
            · exact hs.1
            · exact i3 n hn
          · intro g hg ho hgd
            rw [List.map_cons]
            rcases List.mem_cons.1 hg with rfl | hg
            · exact List.mem_cons_self ..
            · exact List.mem_cons_of_mem _ (i4 g hg ho hgd)

/-- **C77, which fields are filled**: a mock object has values for fields of its class only, in order; every field without a model class has one,
and so has every field whose model class was never visited. Not all required fields are filled: see the counterexamples. -/
theorem C77_fields (cls : Classes) (rnd : Rnd) (fuel : Nat) (p : List Nat) (c : Nat) (memo memo' : Memo) (v : MVal)
    (h : mockObject cls rnd fuel p c memo = .ok (v, memo')) :
    ∃ vs, v = .obj c vs ∧ (vs.map Prod.fst).Sublist ((cls c).map Fld.name) ∧
      ∀ f ∈ cls c, (∀ d, f.ty.modelClass = some d → d ∉ memo') → f.name ∈ vs.map Prod.fst := by
  cases fuel with
  | zero => cases h
  | succ fuel =>
    rw [mockObject] at h
    cases hf : mockFields (mockObject cls rnd fuel) rnd (fun _ => false) p 0 (cls c) (visit c memo) with
    | fuel => rw [hf] at h; cases h
    | raise e => rw [hf] at h; cases h
    | ok q =>
      obtain ⟨vs, m1⟩ := q
      rw [hf] at h
      cases h
      obtain ⟨-, h2, -, h3⟩ := mockFields_names cls rnd fuel _ p _ 0 _ _ _ hf
      exact ⟨vs, rfl, h2, fun f hf => h3 f hf rfl⟩

/-- **C77, overrides**: what the caller gives is used as it is, whatever the type of the field; every other field is as in `C77_fields`; nothing else is set. -/
theorem C77_overrides (cls : Classes) (rnd : Rnd) (fuel : Nat) (c : Nat) (memo memo' : Memo) (overrides vs : List (String × MVal))
    (ho : Dict.Nodup overrides) (h : mockWith cls rnd fuel c memo overrides = .ok (vs, memo')) :
    (∀ n v, Dict.get? overrides n = some v → Dict.get? vs n = some v) ∧
    (∀ n, Dict.has vs n = true → Dict.has overrides n = true ∨ ∃ f ∈ cls c, f.name = n) ∧
    (∀ f ∈ cls c, (∀ d, f.ty.modelClass = some d → d ∉ memo') → Dict.has vs f.name = true) := by
  rw [mockWith] at h
  cases hf : mockFields (mockObject cls rnd fuel) rnd (fun n => Dict.has overrides n) [] 0 (cls c) (visit c memo) with
  | fuel => rw [hf] at h; cases h
  | raise e => rw [hf] at h; cases h
  | ok q =>
    obtain ⟨ws, m1⟩ := q
    rw [hf] at h
    cases h
    obtain ⟨-, h2, h3, h4⟩ := mockFields_names cls rnd fuel _ [] _ 0 _ _ _ hf
    refine ⟨fun n v hv => ?_, fun n hn => ?_, fun f hfc hd => ?_⟩
    · rw [Dict.get?_update _ _ ho, hv]; rfl
    · rw [Dict.has_iff, Dict.mem_keys_update] at hn
      rcases hn with hn | hn
      · obtain ⟨f, hf, e⟩ := List.mem_map.1 (h2.subset hn)
        exact .inr ⟨f, hf, e⟩
      · exact .inl ((Dict.has_iff _ _).2 hn)
    · rw [Dict.has_iff, Dict.mem_keys_update]
      cases hov : Dict.has overrides f.name with
      | true => exact .inr ((Dict.has_iff _ _).1 hov)
      | false => exact .inl (h4 f hfc hov hd)

/-- Nothing is raised by the fields of a class while `c` is being visited, if nothing is raised by other classes. -/
theorem no_raise_fields {cls : Classes} {rnd : Rnd} {c : Nat} {fuel : Nat}
    (hobj : ∀ (p : List Nat) (d : Nat) (m : Memo), c ∈ m → d ≠ c → ∀ e, mockObject cls rnd fuel p d m ≠ .raise e) :
    ∀ (over : String → Bool) (fs : List Fld) (_ : ∀ f ∈ fs, over f.name = false → f.ty.Mockable) (p : List Nat) (i : Nat) (m : Memo), c ∈ m → ∀ e,
      mockFields (mockObject cls rnd fuel) rnd over p i fs m ≠ .raise e := by
    have hsub : ∀ (t : Ty) (p : List Nat) (m m' : Memo) (v : MVal), mockTy (mockObject cls rnd fuel) rnd p t m = .ok (v, m') → ∀ d ∈ m, d ∈ m' := by
      intro t p m m' v h
      exact (mockTy_fine (E := fun _ => True) (n := 0) (K := 0) (rec := mockObject cls rnd fuel) (rnd := rnd)
        (fun p c m => ⟨fun t => absurd t.2 (Nat.not_lt_zero _), fun _ _ => trivial, (fine_all cls rnd fuel p c m).sub⟩) t (.inr trivial) p m).sub v m' h
    have hty : ∀ (t : Ty), t.Mockable → t.modelClass ≠ some c → ∀ (p : List Nat) (m : Memo), c ∈ m → ∀ e, mockTy (mockObject cls rnd fuel) rnd p t m ≠ .raise e := by
      intro t
      induction t with
      | leaf ok => intro ht _ p m _ e; cases (show ok = true from ht); exact nofun
      | dict t _ => intro _ _ p m _ e; exact nofun
      | model d => intro _ hd p m hc e; exact hobj p d m hc (fun h => hd (by rw [h]; rfl)) e
      | list t ok ih =>
        intro ht hd p m hc e h
        cases ht.1
        have hitems : ∀ (k : Nat) (m : Memo), c ∈ m → ∀ e, mockItems (fun i m => mockTy (mockObject cls rnd fuel) rnd (i :: p) t m) k m ≠ .raise e := by
          intro k
          induction k with
          | zero => intro m _ e; exact nofun
          | succ k ihk =>
            intro m hc e h
            rw [mockItems] at h
            cases hx : mockTy (mockObject cls rnd fuel) rnd (k :: p) t m with
            | fuel => rw [hx] at h; cases h
            | raise e' => exact ih ht.2 hd (k :: p) m hc e' hx
            | ok q =>
              obtain ⟨v, m1⟩ := q
              rw [hx] at h
              dsimp only at h
              cases hy : mockItems (fun i m => mockTy (mockObject cls rnd fuel) rnd (i :: p) t m) k m1 with
              | fuel => rw [hy] at h; cases h
              | raise e' => exact ihk m1 (hsub t _ m m1 v hx c hc) e' hy
              | ok q => rw [hy] at h; cases h
        rw [mockTy] at h
        cases hx : mockItems (fun i m => mockTy (mockObject cls rnd fuel) rnd (i :: p) t m) (rnd.length p) m with
        | fuel => rw [hx] at h; cases h
        | raise e' => exact hitems _ m hc e' hx
        | ok q => rw [hx] at h; cases h
    intro over fs
    induction fs with
    | nil => intro _ p i m _ e h; cases h
    | cons f r ihr =>
      intro hf p i m hc e h
      rw [mockFields] at h
      split at h
      · exact ihr (fun g hg => hf g (List.mem_cons_of_mem _ hg)) p (i + 1) m hc e h
      · rename_i hs
        rw [Bool.not_eq_true, Bool.or_eq_false_iff] at hs
        have hne : f.ty.modelClass ≠ some c := by
          intro hcl
          rw [hcl] at hs
          have := hs.2
          simp [visited, hc] at this
        have h1 : ∀ e, mockField (mockObject cls rnd fuel) rnd (i :: p) f m ≠ .raise e := by
          intro e h
          rw [mockField] at h
          split at h
          · cases h
          · exact hty f.ty (hf f (List.mem_cons_self ..) hs.1) hne (i :: p) m hc e h
        cases hx : mockField (mockObject cls rnd fuel) rnd (i :: p) f m with
        | fuel => rw [hx] at h; cases h
        | raise e' => exact h1 e' hx
        | ok q =>
          obtain ⟨v, m1⟩ := q
          have hc1 : c ∈ m1 := by
            rw [mockField] at hx
            split at hx
            · cases hx; exact hc
            · exact hsub _ _ _ _ _ hx c hc
          rw [hx] at h
          dsimp only at h
          cases hy : mockFields (mockObject cls rnd fuel) rnd over p (i + 1) r m1 with
          | fuel => rw [hy] at h; cases h
          | raise e' => exact ihr (fun g hg => hf g (List.mem_cons_of_mem _ hg)) p (i + 1) m1 hc1 e' hy
          | ok q => rw [hy] at h; cases h

/-- Nothing is raised in a class `d` other than `c` while `c` is being visited. -/
theorem no_raise {cls : Classes} {rnd : Rnd} {c : Nat} (hm : ∀ d, d ≠ c → ∀ f ∈ cls d, f.ty.Mockable) :
    ∀ (fuel : Nat) (p : List Nat) (d : Nat) (m : Memo), c ∈ m → d ≠ c → ∀ e, mockObject cls rnd fuel p d m ≠ .raise e
  | 0, _, _, _, _, _, _ => nofun
  | fuel + 1, p, d, m, hc, hd, e => by
    intro h
    rw [mockObject] at h
    cases hx : mockFields (mockObject cls rnd fuel) rnd (fun _ => false) p 0 (cls d) (visit d m) with
    | fuel => rw [hx] at h; cases h
    | raise e' => exact no_raise_fields (no_raise hm fuel) _ _ (fun f hf _ => hm d hd f hf) p 0 _ (visit_sub d m c hc) e' hx
    | ok q => rw [hx] at h; cases h

/-- **C77, overridden fields are not mocked**: if the types of all fields that are not overridden leave room for mock values there is a mock object, even if an overridden
field has none. -/
theorem C77_overrides_succeed (cls : Classes) (rnd : Rnd) (n : Nat) (hc : Closed cls n) (overrides : List (String × MVal)) (c : Nat) (hcn : c < n) (memo : Memo)
    (hm : ∀ d, ∀ f ∈ cls d, f.ty.Mockable ∨ d = c ∧ Dict.has overrides f.name = true) :
    ∃ v, mockWith cls rnd n c memo overrides = .ok v := by
  have hf := mockFields_fine (E := fun _ => True) (E' := fun _ => True) (rnd := rnd) (K := n)
    (fun p c m => ⟨(fine_any rnd hc n p c m).fuel, fun _ _ => trivial, (fine_any rnd hc n p c m).sub⟩) (fun _ _ => trivial)
    (fun n => Dict.has overrides n) [] (cls c) (fun f hf _ => .inr trivial) 0 (visit c memo)
  rw [mockWith]
  cases hx : mockFields (mockObject cls rnd n) rnd (fun n => Dict.has overrides n) [] 0 (cls c) (visit c memo) with
  | fuel => exact absurd hx (hf.fuel ⟨hc c hcn, unseen_le n _⟩)
  | raise e =>
    refine absurd hx (no_raise_fields (no_raise (c := c) (fun d hd f hf => (hm d f hf).resolve_right fun h => hd h.1) n) _ _ (fun f hf ho => ?_) [] 0 _ (visit_mem c memo) e)
    exact (hm c f hf).resolve_right fun h => by rw [h.2] at ho; cases ho
  | ok q => exact ⟨_, rfl⟩

mutual
/-- Specification: what a mocked value of a type looks like.  A list has the chosen length, a model instance has values for some of its fields. -/
inductive Fits (cls : Classes) (rnd : Rnd) : List Nat → Ty → MVal → Prop
  | leaf (p b) : Fits cls rnd p (.leaf b) .simple
  | dict (p t) : Fits cls rnd p (.dict t) .none
  | list (p t b xs) : xs.length = rnd.length p → (∀ x ∈ xs, FitsItem cls rnd p t x) → Fits cls rnd p (.list t b) (.list xs)
  | model (p c vs) : (∀ e ∈ vs, FitsField cls rnd p c e.1 e.2) → Fits cls rnd p (.model c) (.obj c vs)

/-- An item of a list. -/
inductive FitsItem (cls : Classes) (rnd : Rnd) : List Nat → Ty → MVal → Prop
  | mk (p t x i) : Fits cls rnd (i :: p) t x → FitsItem cls rnd p t x

/-- The value of a field: its default, only if the field is optional and the coin says so, or a mocked value of its type. -/
inductive FitsField (cls : Classes) (rnd : Rnd) : List Nat → Nat → String → MVal → Prop
  | dflt (p c i f) : (cls c)[i]? = some f → f.required = false → rnd.fill (i :: p) = false → FitsField cls rnd p c f.name .dflt
  | value (p c i f v) : (cls c)[i]? = some f → (f.required = true ∨ rnd.fill (i :: p) = true) → Fits cls rnd (i :: p) f.ty v → FitsField cls rnd p c f.name v
end

theorem mockItems_fits {P : MVal → Prop} {g : Nat → Memo → Out (MVal × Memo)} (hg : ∀ i m v m', g i m = .ok (v, m') → P v) :
    ∀ (n : Nat) (m m' : Memo) (xs : List MVal), mockItems g n m = .ok (xs, m') → xs.length = n ∧ ∀ x ∈ xs, P x
  | 0, m, m', xs, h => by
    rw [mockItems] at h
    cases h
    exact ⟨rfl, nofun⟩
  | n + 1, m, m', xs, h => by
    rw [mockItems] at h
    cases hx : g n m with
    | fuel => rw [hx] at h; cases h
    | raise e => rw [hx] at h; cases h
    | ok q =>
      obtain ⟨v, m1⟩ := q
      rw [hx] at h
      dsimp only at h
      cases hy : mockItems g n m1 with
      | fuel => rw [hy] at h; cases h
      | raise e => rw [hy] at h; cases h
      | ok q =>
        obtain ⟨ys, m2⟩ := q
        rw [hy] at h
        cases h
        obtain ⟨h1, h2⟩ := mockItems_fits hg n m1 m' ys hy
        refine ⟨by rw [List.length_cons, h1], fun x hx' => ?_⟩
        rcases List.mem_cons.1 hx' with rfl | hx'
        · exact hg _ _ _ _ hx
        · exact h2 x hx'

theorem mockTy_fits {cls : Classes} {rnd : Rnd} {rec : List Nat → Nat → Memo → Out (MVal × Memo)}
    (hr : ∀ p c m v m', rec p c m = .ok (v, m') → Fits cls rnd p (.model c) v) :
    ∀ (t : Ty) (p : List Nat) (m m' : Memo) (v : MVal), mockTy rec rnd p t m = .ok (v, m') → Fits cls rnd p t v
  | .leaf true, p, m, m', v, h => by
    rw [mockTy] at h
    cases h
    exact .leaf ..
  | .leaf false, p, m, m', v, h => by rw [mockTy] at h; cases h
  | .model c, p, m, m', v, h => hr p c m v m' h
  | .list t false, p, m, m', v, h => by rw [mockTy] at h; cases h
  | .list t true, p, m, m', v, h => by
    rw [mockTy] at h
    cases hx : mockItems (fun i m => mockTy rec rnd (i :: p) t m) (rnd.length p) m with
    | fuel => rw [hx] at h; cases h
    | raise e => rw [hx] at h; cases h
    | ok q =>
      obtain ⟨xs, m1⟩ := q
      rw [hx] at h
      cases h
      obtain ⟨h1, h2⟩ := mockItems_fits (P := FitsItem cls rnd p t) (fun i m v m' h => .mk _ _ _ i (mockTy_fits hr t (i :: p) m m' v h)) _ _ _ _ hx
      exact .list p t true xs h1 h2
  | .dict t, p, m, m', v, h => by
    rw [mockTy] at h
    cases h
    exact .dict ..

theorem mockFields_fits {cls : Classes} {rnd : Rnd} {rec : List Nat → Nat → Memo → Out (MVal × Memo)}
    (hr : ∀ p c m v m', rec p c m = .ok (v, m') → Fits cls rnd p (.model c) v) (over : String → Bool) (p : List Nat) :
    ∀ (fs : List Fld) (i : Nat) (m m' : Memo) (vs : List (String × MVal)), mockFields rec rnd over p i fs m = .ok (vs, m') →
    ∀ e ∈ vs, ∃ (j : Nat) (f : Fld), fs[j]? = some f ∧ f.name = e.1 ∧
      ((f.required = false ∧ rnd.fill ((i + j) :: p) = false ∧ e.2 = .dflt) ∨
        ((f.required = true ∨ rnd.fill ((i + j) :: p) = true) ∧ Fits cls rnd ((i + j) :: p) f.ty e.2))
  | [], i, m, m', vs, h => by
    rw [mockFields] at h
    cases h
    exact nofun
  | f :: r, i, m, m', vs, h => by
    rw [mockFields] at h
    have up : ∀ (m : Memo) (vs : List (String × MVal)), mockFields rec rnd over p (i + 1) r m = .ok (vs, m') → ∀ e ∈ vs, ∃ (j : Nat) (g : Fld), (f :: r)[j]? = some g ∧ g.name = e.1 ∧
      ((g.required = false ∧ rnd.fill ((i + j) :: p) = false ∧ e.2 = .dflt) ∨
        ((g.required = true ∨ rnd.fill ((i + j) :: p) = true) ∧ Fits cls rnd ((i + j) :: p) g.ty e.2)) := by
      intro m vs h e he
      obtain ⟨j, g, h1, h2, h3⟩ := mockFields_fits hr over p r (i + 1) m m' vs h e he
      rw [Nat.add_right_comm, Nat.add_assoc] at h3
      exact ⟨j + 1, g, h1, h2, h3⟩
    split at h
    · exact up m vs h
    · cases hx : mockField rec rnd (i :: p) f m with
      | fuel => rw [hx] at h; cases h
      | raise e => rw [hx] at h; cases h
      | ok q =>
        obtain ⟨v, m1⟩ := q
        rw [hx] at h
        dsimp only at h
        cases hy : mockFields rec rnd over p (i + 1) r m1 with
        | fuel => rw [hy] at h; cases h
        | raise e => rw [hy] at h; cases h
        | ok q =>
          obtain ⟨vs1, m2⟩ := q
          rw [hy] at h
          cases h
          intro e he
          rcases List.mem_cons.1 he with rfl | he
          · refine ⟨0, f, rfl, rfl, ?_⟩
            rw [mockField] at hx
            rw [Nat.add_zero]
            split at hx
            · rename_i hc
              cases hx
              rw [Bool.and_eq_true, Bool.not_eq_true', Bool.not_eq_true'] at hc
              exact .inl ⟨hc.1, hc.2, rfl⟩
            · rename_i hc
              refine .inr ⟨?_, mockTy_fits hr _ _ _ _ _ hx⟩
              cases h1 : f.required with
              | true => exact .inl rfl
              | false =>
                cases h2 : rnd.fill (i :: p) with
                | true => exact .inr rfl
                | false => rw [h1, h2] at hc; exact absurd rfl hc
          · exact up m1 vs1 hy e he

/-- **C77, values**: at every depth, the value of a field has the field's type, a required field never has its default, an optional field has its default exactly when the
random choice says so, and a list has the chosen length. -/
theorem C77_values (cls : Classes) (rnd : Rnd) : ∀ (fuel : Nat) (p : List Nat) (c : Nat) (memo memo' : Memo) (v : MVal),
    mockObject cls rnd fuel p c memo = .ok (v, memo') → Fits cls rnd p (.model c) v
  | 0, p, c, memo, memo', v, h => by cases h
  | fuel + 1, p, c, memo, memo', v, h => by
    rw [mockObject] at h
    cases hf : mockFields (mockObject cls rnd fuel) rnd (fun _ => false) p 0 (cls c) (visit c memo) with
    | fuel => rw [hf] at h; cases h
    | raise e => rw [hf] at h; cases h
    | ok q =>
      obtain ⟨vs, m1⟩ := q
      rw [hf] at h
      cases h
      have := mockFields_fits (fun p c m v m' h => C77_values cls rnd fuel p c m m' v h) (fun _ => false) p _ _ _ _ _ hf
      simp only [Nat.zero_add] at this
      refine .model p c vs fun e he => ?_
      obtain ⟨j, f, h1, h2, h3⟩ := this e he
      obtain ⟨n, w⟩ := e
      dsimp only at h2 h3
      subst h2
      rcases h3 with ⟨h3, h4, rfl⟩ | ⟨h3, h4⟩
      · exact .dflt p c j f h1 h3 h4
      · exact .value p c j f w h1 h3 h4

/-! ## What fails -/

/-- Class 0 has two required fields of class 1, and a required dict. -/
def twice : Classes
  | 0 => [⟨"a", .model 1, true⟩, ⟨"b", .model 1, true⟩, ⟨"d", .dict .leaf, true⟩]
  | 1 => [⟨"x", .leaf, true⟩]
  | _ => []

/-- Always fill, lists of two items. -/
def sampleRnd : Rnd := ⟨fun _ => true, fun _ => 2⟩

/-- **C77, counterexample**: of two required fields of the same model class only the first is filled, and a required dict is `None`: the mock object does not
validate. -/
theorem C77_counterexample_required :
    mockObject twice sampleRnd 3 [] 0 [] = .ok (.obj 0 [("a", .obj 1 [("x", .simple)]), ("d", .none)], [1, 0]) := rfl

/-- Class 0 has a list of class 1, which has a required field of class 2. -/
def listed : Classes
  | 0 => [⟨"items", .list (.model 1), true⟩]
  | 1 => [⟨"c", .model 2, true⟩]
  | 2 => [⟨"x", .leaf, true⟩]
  | _ => []

/-- **C77, counterexample for lists**: only the first item of a mocked list of models has its nested models. -/
theorem C77_counterexample_items :
    mockObject listed sampleRnd 4 [] 0 [] =
      .ok (.obj 0 [("items", .list [.obj 1 [("c", .obj 2 [("x", .simple)])], .obj 1 []])], [2, 1, 0]) := rfl

/-- A class with a field whose bounds leave no room: `StringType(min_length=5, max_length=3)`. -/
def tight : Classes
  | 0 => [⟨"s", .leaf false, true⟩, ⟨"x", .leaf, true⟩]
  | _ => []

/-- **C77, counterexample for errors**: where `MockCreationError` is documented, `AttributeError` comes out. -/
theorem C77_counterexample_error : mockObject tight sampleRnd 3 [] 0 [] = .raise .attribute := rfl

/-! ## The hypotheses are met -/

/-- A recursive class. -/
def recursive : Classes
  | 0 => [⟨"name", .leaf, true⟩, ⟨"parent", .model 0, false⟩, ⟨"others", .list (.model 1), true⟩]
  | 1 => [⟨"back", .model 0, true⟩, ⟨"x", .leaf, true⟩]
  | _ => []

example : Closed recursive 2 := by
  intro c hc f hf d hd
  match c, hc with
  | 0, _ =>
    simp only [recursive, List.mem_cons, List.not_mem_nil, or_false] at hf
    rcases hf with rfl | rfl | rfl <;> simp_all [Ty.modelClass] <;> omega
  | 1, _ =>
    simp only [recursive, List.mem_cons, List.not_mem_nil, or_false] at hf
    rcases hf with rfl | rfl <;> simp_all [Ty.modelClass] <;> omega
example : mockObject recursive sampleRnd 3 [] 0 [] =
    .ok (.obj 0 [("name", .simple), ("others", .list [.obj 1 [("x", .simple)], .obj 1 [("x", .simple)]])], [1, 0]) := rfl
example : ∀ c, ∀ f ∈ recursive c, f.ty.Mockable := by
  intro c f hf
  unfold recursive at hf
  split at hf
  · simp only [List.mem_cons, List.not_mem_nil, or_false] at hf
    rcases hf with rfl | rfl | rfl <;> simp [Ty.Mockable]
  · simp only [List.mem_cons, List.not_mem_nil, or_false] at hf
    rcases hf with rfl | rfl <;> simp [Ty.Mockable]
  · cases hf
example : Closed tight 1 := by
  intro c hc f hf d hd
  obtain rfl : c = 0 := by omega
  simp only [tight, List.mem_cons, List.not_mem_nil, or_false] at hf
  rcases hf with rfl | rfl <;> cases hd
example : ∀ d, ∀ f ∈ tight d, f.ty.Mockable ∨ d = 0 ∧ Dict.has [("s", MVal.given 7)] f.name = true := by
  intro d f hf
  unfold tight at hf
  split at hf
  · simp only [List.mem_cons, List.not_mem_nil, or_false] at hf
    rcases hf with rfl | rfl
    · exact .inr ⟨rfl, rfl⟩
    · exact .inl rfl
  · cases hf
example : mockWith tight sampleRnd 1 0 [] [("s", .given 7)] = .ok ([("x", .simple), ("s", .given 7)], [0]) := rfl

end Verif.Lib.MockObject
