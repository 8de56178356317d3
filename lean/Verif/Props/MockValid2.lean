import Verif.Props.MockValid

/-!
# C103: where the values of a mock object come from
-/
namespace Verif.Mocks

open Verif

mutual
/-- What `_mock` of a type may return, at any place of the run. -/
inductive MockOf (env : Env) (dice : Dice) : Field → Val → Prop
  | leaf {l o p v} : dice.leaf p l = some v → MockOf env dice (.mk (.leaf l) o) v
  | list {inner mn mx o xs} : Fits mn mx xs → (∀ x ∈ xs, MockOf env dice inner x) → MockOf env dice (.mk (.list inner mn mx) o) (.list xs)
  | dict {inner co o} : MockOf env dice (.mk (.dict inner co) o) .none
  | poly {q o} : MockOf env dice (.mk (.poly q) o) .none
  | model {k c d o} : env.cls k = some c → (∀ fd ∈ c.fields, Holds env dice [] fd d) → MockOf env dice (.mk (.model k) o) (.inst c.name d)
/-- The object with the data `d` holds, in a field, what the constructor makes of the value given (or, without one, of the default, else `None`). -/
inductive Holds (env : Env) (dice : Dice) : Data → FieldDef → Data → Prop
  | mk {over fd d v w n} : Source env dice over fd v → fieldConv env n newCtx true fd.field (fillValue newCtx fd v) = .ok w →
      Dict.get? d (.str fd.name) = (if w.isUndef then none else some w) → Holds env dice over fd d
/-- Where the value given for a field comes from: an override; else nothing, only if the field leads to a model class; else the default, only if the
field is optional; else one of the choices; else a mock. -/
inductive Source (env : Env) (dice : Dice) : Data → FieldDef → Val → Prop
  | override {over fd v} : Dict.get? over (.str fd.name) = some v → Source env dice over fd v
  | visited {over fd k} : Dict.get? over (.str fd.name) = none → fd.field.modelClass = some k → Source env dice over fd .undef
  | default {over fd} : Dict.get? over (.str fd.name) = none → fd.field.o.required = false → Source env dice over fd fd.field.o.default
  | choice {over fd cs v} : Dict.get? over (.str fd.name) = none → fd.field.o.choices = some cs → v ∈ cs → Source env dice over fd v
  | mock {over fd v} : Dict.get? over (.str fd.name) = none → fd.field.o.choices = none → MockOf env dice fd.field v → Source env dice over fd v
end

/-- The calls for nested objects return mocks. -/
def RecMocks (env : Env) (dice : Dice) (rec : List Nat → String → Seen → R (Val × Seen)) : Prop :=
  ∀ p k seen v seen' o, rec p k seen = .ok (v, seen') → MockOf env dice (.mk (.model k) o) v

theorem items_of {P : Val → Prop} {f : Nat → Seen → R (Val × Seen)} (hf : ∀ i s v s', f i s = .ok (v, s') → P v) :
    ∀ (m : Nat) (seen : Seen) (xs : List Val) (seen' : Seen), mockItems f m seen = .ok (xs, seen') → xs.length = m ∧ ∀ x ∈ xs, P x := by
  intro m
  induction m with
  | zero =>
    intro seen xs seen' h
    simp only [mockItems] at h
    injection h with h
    injection h with h _
    subst h
    exact ⟨rfl, fun _ h => by cases h⟩
  | succ m ih =>
    intro seen xs seen' h
    simp only [mockItems] at h
    cases h1 : f m seen with
    | error e => rw [h1] at h; cases h
    | ok r =>
      obtain ⟨x, s1⟩ := r
      rw [h1] at h
      simp only [] at h
      cases h2 : mockItems f m s1 with
      | error e => rw [h2] at h; cases h
      | ok r2 =>
        obtain ⟨ys, s2⟩ := r2
        rw [h2] at h
        injection h with h
        injection h with h _
        subst h
        have := ih s1 ys s2 h2
        refine ⟨by simp [this.1], fun y hy => ?_⟩
        rcases List.mem_cons.1 hy with rfl | hy
        · exact hf _ _ _ _ h1
        · exact this.2 y hy

mutual
theorem type_of {env : Env} {dice : Dice} {rec : List Nat → String → Seen → R (Val × Seen)} (hr : RecMocks env dice rec) :
    (t : FType) → (o : FieldOpts) → (p : List Nat) → (seen : Seen) → (v : Val) → (seen' : Seen) →
    t.mockValue rec dice p seen = .ok (v, seen') → MockOf env dice (.mk t o) v
  | .leaf l, o, p, seen, v, seen', h => by
    simp only [FType.mockValue] at h
    cases hd : dice.leaf p l with
    | none => rw [hd] at h; cases h
    | some x =>
      rw [hd] at h
      injection h with h
      injection h with h _
      subst h
      exact .leaf hd
  | .list inner mn mx, o, p, seen, v, seen', h => by
    simp only [FType.mockValue] at h
    cases hl : Types.Mock.listLength mx mn (dice.tape p) with
    | none => rw [hl] at h; cases h
    | some m =>
      rw [hl] at h
      simp only [] at h
      cases hi : mockItems (fun i s => inner.mockValue rec dice (i :: p) s) m seen with
      | error e => rw [hi] at h; cases h
      | ok r =>
        obtain ⟨xs, s1⟩ := r
        rw [hi] at h
        injection h with h
        injection h with h _
        subst h
        obtain ⟨h1, h2⟩ := items_of (P := MockOf env dice inner) (fun i s v s' hv => field_of hr inner (i :: p) s v s' hv) m seen xs s1 hi
        refine .list ?_ h2
        unfold Fits
        rw [h1]
        exact (Types.Mock.C73_list mx mn (dice.tape p)).1 m hl
  | .dict inner co, o, p, seen, v, seen', h => by
    simp only [FType.mockValue] at h
    injection h with h
    injection h with h _
    subst h
    exact .dict
  | .model k, o, p, seen, v, seen', h => hr p k seen v seen' o h
  | .poly q, o, p, seen, v, seen', h => by
    simp only [FType.mockValue] at h
    injection h with h
    injection h with h _
    subst h
    exact .poly
theorem field_of {env : Env} {dice : Dice} {rec : List Nat → String → Seen → R (Val × Seen)} (hr : RecMocks env dice rec) :
    (f : Field) → (p : List Nat) → (seen : Seen) → (v : Val) → (seen' : Seen) → f.mockValue rec dice p seen = .ok (v, seen') → MockOf env dice f v
  | .mk t o, p, seen, v, seen', h => type_of hr t o p seen v seen' (by simpa only [Field.mockValue] using h)
end

theorem mock_of {env : Env} {dice : Dice} {rec : List Nat → String → Seen → R (Val × Seen)} (hr : RecMocks env dice rec) {over : Data} {fd : FieldDef}
    (ho : Dict.get? over (.str fd.name) = none) {p : List Nat} {seen seen' : Seen} {v : Val} (h : fd.field.mock rec dice p seen = .ok (v, seen')) :
    Source env dice over fd v := by
  unfold Field.mock at h
  cases hq : (!fd.field.o.required && !dice.fill p) with
  | true =>
    rw [hq] at h
    simp only [if_true] at h
    injection h with h
    injection h with h _
    subst h
    exact .default ho (by simp at hq; exact hq.1)
  | false =>
    rw [hq] at h
    simp only [Bool.false_eq_true, if_false] at h
    cases hc : fd.field.o.choices with
    | some cs =>
      rw [hc] at h
      simp only [] at h
      cases hi : cs[dice.pick p % cs.length]? with
      | none => rw [hi] at h; cases h
      | some x =>
        rw [hi] at h
        injection h with h
        injection h with h _
        subst h
        exact .choice ho hc (List.mem_of_getElem? hi)
    | none =>
      rw [hc] at h
      exact .mock ho hc (field_of hr _ _ _ _ _ h)

/-- The values mocked for a list of fields. -/
structure AllMocked (env : Env) (dice : Dice) (over : Data) (fds : List FieldDef) (vs : Data) : Prop where
  names : (vs.keys).Sublist (fds.map fun fd => Key.str fd.name)
  given : ∀ fd ∈ fds, Dict.get? over (.str fd.name) = none → (Key.str fd.name ∉ vs.keys ∧ ∃ k, fd.field.modelClass = some k) ∨
    ∃ v, (Key.str fd.name, v) ∈ vs ∧ Source env dice over fd v

theorem loop_of {env : Env} {dice : Dice} {rec : List Nat → String → Seen → R (Val × Seen)} (hr : RecMocks env dice rec) (over : Data) (p : List Nat)
    (fds : List FieldDef) (hnd : (fds.map (·.name)).Nodup) (i : Nat) (seen seen' : Seen) (vs : Data) (h : mockLoop rec dice over p i fds seen = .ok (vs, seen')) :
    AllMocked env dice over fds vs := by
  induction fds generalizing i seen seen' vs with
  | nil =>
    simp only [mockLoop] at h
    injection h with h
    injection h with h _
    subst h
    exact ⟨List.Sublist.refl _, fun _ h => by cases h⟩
  | cons fd fds ih =>
    simp only [List.map_cons, List.nodup_cons] at hnd
    have hfresh : ∀ {vs : Data}, (vs.keys).Sublist (fds.map fun fd => Key.str fd.name) → Key.str fd.name ∉ vs.keys := by
      intro vs hs hm
      obtain ⟨fd', h1, h2⟩ := List.mem_map.1 (hs.subset hm)
      injection h2 with h2
      exact hnd.1 (List.mem_map.2 ⟨fd', h1, h2⟩)
    simp only [mockLoop] at h
    cases hq : (over.has (.str fd.name) || seenClass seen fd.field.modelClass) with
    | true =>
      rw [hq] at h
      simp only [if_true] at h
      have hm := ih hnd.2 _ _ _ _ h
      refine ⟨hm.names.trans (List.sublist_cons_self _ _), fun fd' hfd' ho => ?_⟩
      rcases List.mem_cons.1 hfd' with rfl | hfd'
      · left
        refine ⟨hfresh hm.names, ?_⟩
        have : over.has (.str fd'.name) = false := by simp [Dict.has, ho]
        rw [this, Bool.false_or] at hq
        cases hk : fd'.field.modelClass with
        | none => rw [hk] at hq; cases hq
        | some k => exact ⟨k, rfl⟩
      · exact hm.given fd' hfd' ho
    | false =>
      rw [hq] at h
      simp only [Bool.false_eq_true, if_false] at h
      cases h1 : fd.field.mock rec dice (i :: p) seen with
      | error e => rw [h1] at h; cases h
      | ok r =>
        obtain ⟨v, s1⟩ := r
        rw [h1] at h
        simp only [] at h
        cases h2 : mockLoop rec dice over p (i + 1) fds s1 with
        | error e => rw [h2] at h; cases h
        | ok r2 =>
          obtain ⟨ws, s2⟩ := r2
          rw [h2] at h
          injection h with h
          injection h with h _
          subst h
          have hm := ih hnd.2 _ _ _ _ h2
          refine ⟨?_, fun fd' hfd' ho => ?_⟩
          · rw [Dict.keys_cons, List.map_cons]
            exact hm.names.cons_cons _
          · rcases List.mem_cons.1 hfd' with rfl | hfd'
            · right
              exact ⟨v, by simp, mock_of hr ho h1⟩
            · rcases hm.given fd' hfd' ho with ⟨h3, h4⟩ | ⟨v', h3, h4⟩
              · left
                refine ⟨?_, h4⟩
                rw [Dict.keys_cons, List.mem_cons]
                rintro (h5 | h5)
                · injection h5 with h5
                  exact hnd.1 (List.mem_map.2 ⟨fd', hfd', h5⟩)
                · exact h3 h5
              · right
                exact ⟨v', by simp [h3], h4⟩

/-- The value handed to the constructor comes from where it should. -/
theorem source_of {env : Env} {dice : Dice} {over : Data} (hno : over.Nodup) {c : ClassDef} (hwf : c.WF) {vs : Data} (hm : AllMocked env dice over c.fields vs)
    {fd : FieldDef} (hfd : fd ∈ c.fields) : Source env dice over fd (rawValue (Dict.update vs over) fd.name) := by
  have hnd : Dict.Nodup vs := by
    unfold Dict.Nodup
    refine hm.names.nodup ?_
    unfold ClassDef.WF at hwf
    rw [show (fun fd : FieldDef => Key.str fd.name) = Key.str ∘ (·.name) from rfl, ← List.map_map]
    exact List.Pairwise.map _ (fun a b h h' => h (by injection h')) hwf
  unfold rawValue
  rw [Dict.get?_update _ _ hno]
  cases ho : Dict.get? over (.str fd.name) with
  | some v => exact .override ho
  | none =>
    simp only [Option.none_or]
    rcases hm.given fd hfd ho with ⟨h1, k, hk⟩ | ⟨v, h1, h2⟩
    · rw [(Dict.get?_eq_none _ _).2 h1]
      exact .visited ho hk
    · rw [Dict.get?_of_mem hnd h1]
      exact h2

/-- The input of a field is what is given under its own name. -/
theorem own_input {c : ClassDef} (hcl : c.NoAliasClash) {raw : Data} (hk : ∀ k ∈ raw.keys, ∃ fd ∈ c.fields, k = Key.str fd.name)
    {fd : FieldDef} (hfd : fd ∈ c.fields) : inputValue raw .empty fd = rawValue raw fd.name := by
  unfold inputValue
  simp only
  split
  · rename_i hu
    rw [(Val.isUndef_iff _).1 hu, ← ownNames_eq]
    refine alias_undef _ fun s hs hne => ?_
    rw [Dict.get?_eq_none]
    intro h
    obtain ⟨fd', hfd', hn⟩ := hk _ h
    injection hn with hn
    subst hn
    exact hne (hcl fd hfd fd' hfd' hs)
  · rfl

theorem keys_of {env : Env} {dice : Dice} {over : Data} {c : ClassDef} {vs : Data} (hm : AllMocked env dice over c.fields vs)
    (ho : ∀ k ∈ over.keys, ∃ fd ∈ c.fields, k = Key.str fd.name) : ∀ k ∈ (Dict.update vs over).keys, ∃ fd ∈ c.fields, k = Key.str fd.name := by
  intro k hk
  rcases (Dict.mem_keys_update _ _ _).1 hk with h | h
  · obtain ⟨fd, h1, h2⟩ := List.mem_map.1 (hm.names.subset h)
    exact ⟨fd, h1, h2.symm⟩
  · exact ho k h

/-- What is assumed of every class. -/
structure Ordered (c : ClassDef) : Prop where
  wf : c.WF
  simple : c.Simple
  clash : c.NoAliasClash
  pure : PureValidators c

theorem gives_of {env : Env} {n : Nat} {c : ClassDef} (hc : Ordered c) {raw d : Data} (hk : ∀ k ∈ raw.keys, ∃ fd ∈ c.fields, k = Key.str fd.name)
    (h : importBody (fieldConv env n) env newCtx c raw [] = .ok d) {fd : FieldDef} (hfd : fd ∈ c.fields) :
    ∃ w, fieldConv env n newCtx true fd.field (fillValue newCtx fd (rawValue raw fd.name)) = .ok w ∧
      Dict.get? d (.str fd.name) = (if w.isUndef then none else some w) := by
  obtain ⟨_, res, hres, rfl⟩ := (importBody_simple rfl hc.wf hc.simple).1 h
  obtain ⟨w, hw, hr⟩ := hres fd hfd
  rw [gentle_field (gentle_new false)] at hw
  have : inputValue raw newCtx.mapping fd = rawValue raw fd.name := own_input hc.clash hk hfd
  rw [this] at hw
  exact ⟨w, hw, by rw [tabulate_get hc.wf res hfd, hr]⟩

theorem init_error {env : Env} {n : Nat} {c : ClassDef} {raw : Data} {e : Exc} (h : importBody (fieldConv env n) env newCtx c raw [] = .error e) :
    instInit env n c raw [] false newCtx = .error e := by
  have hsrc : Inst.source { valid := [] } raw = raw := by
    unfold Inst.source
    cases raw <;> rfl
  have himp : runImport env n newCtx c (.inst ([] : Data)) raw = .error e := by
    unfold runImport importLoop
    rw [if_neg (by decide)]
    exact h
  unfold instInit instConvert
  rw [hsrc]
  simp only [Bool.false_eq_true, if_false]
  have hctx : Inst.convertCtx { valid := [] } { newCtx with trusted := [] } = newCtx := rfl
  have hval : newCtx.validate = false := rfl
  rw [hctx]
  simp only [hval]
  have hcont : Inst.content { valid := [] } = [] := rfl
  rw [hcont, himp]
  rfl

theorem object_of {env : Env} (henv : ∀ k c, env.cls k = some c → Ordered c) (dice : Dice) (n fuel : Nat) : RecMocks env dice (mockObject env dice n fuel) := by
  induction fuel with
  | zero => intro p k seen v seen' o h; cases h
  | succ fuel ih =>
    intro p k seen v seen' o h
    simp only [mockObject] at h
    cases hc : env.cls k with
    | none => rw [hc] at h; cases h
    | some c =>
      rw [hc] at h
      have hck := henv k c hc
      simp only [mockValues] at h
      cases hl : mockLoop (mockObject env dice n fuel) dice [] p 0 c.fields (seeClass k seen) with
      | error e => rw [hl] at h; cases h
      | ok r =>
        obtain ⟨vs, s1⟩ := r
        rw [hl] at h
        simp only [mockBuild, Dict.update_nil] at h
        have hm := loop_of ih [] p c.fields hck.wf 0 _ _ vs hl
        have hkeys := keys_of hm (fun _ h => by cases h)
        rw [Dict.update_nil] at hkeys
        cases hb : newInstance (fieldConv env n) env newCtx c vs with
        | error e => rw [hb] at h; cases h
        | ok w =>
          rw [hb] at h
          injection h with h
          injection h with h _
          subst h
          obtain ⟨d, h1, rfl, _⟩ := (simple_newInstance hck.simple hck.pure).1 hb
          refine .model hc fun fd hfd => ?_
          obtain ⟨w, h2, h3⟩ := gives_of hck hkeys h1 hfd
          have := source_of (over := []) List.nodup_nil hck.wf hm hfd
          rw [Dict.update_nil] at this
          exact .mk this h2 h3

/-- **C103, the values**: in a mock object, and in the objects inside it, every field holds what the constructor makes of the value given: of the
override if there is one; of nothing (so of the default, else `None`) only if the field leads to a model class; of the default only if the field is
optional; of one of its choices if it has any; else of a mock of its type - for a scalar type an outcome of its `_mock`, for a list a list of mocks of a length
within its bounds, for a model a mock object, for dicts and polymorphic models `None`. -/
theorem C103_values (env : Env) (henv : ∀ k c, env.cls k = some c → Ordered c) (dice : Dice) (n fuel : Nat) (c : ClassDef) (hc : Ordered c) (over : Data)
    (ho : ∀ k ∈ over.keys, ∃ fd ∈ c.fields, k = Key.str fd.name) (hno : over.Nodup) (I : Inst) (h : getMockObject env dice n fuel c over = .ok I)
    (fd : FieldDef) (hfd : fd ∈ c.fields) :
    ∃ v w, Source env dice over fd v ∧ fieldConv env n newCtx true fd.field (fillValue newCtx fd v) = .ok w ∧ getAttr c I fd.name = definedOr (some w) := by
  simp only [getMockObject, mockValues] at h
  cases hl : mockLoop (mockObject env dice n fuel) dice over [] 0 c.fields [c.name] with
  | error e => rw [hl] at h; cases h
  | ok r =>
    obtain ⟨vs, s1⟩ := r
    rw [hl] at h
    simp only [] at h
    have hm := loop_of (object_of henv dice n fuel) over [] c.fields hc.wf 0 _ _ vs hl
    have hkeys := keys_of hm ho
    cases hb : importBody (fieldConv env n) env newCtx c (Dict.update vs over) [] with
    | error e =>
      exfalso
      have hi := init_error hb
      rw [hi] at h
      cases h
    | ok d =>
      rw [init_ok hb] at h
      injection h with h
      subst h
      obtain ⟨w, h2, h3⟩ := gives_of hc hkeys hb hfd
      refine ⟨_, w, source_of hno hc.wf hm hfd, h2, ?_⟩
      unfold getAttr
      rw [field?_mem hc.wf hfd]
      simp only [(hc.simple fd hfd).1, built_lookup, h3]
      cases hu : w.isUndef with
      | true => simp [definedOr, hu]
      | false => simp

/-! ## The hypotheses are met -/

theorem sample_ordered : ∀ k c, sampleEnv.cls k = some c → Ordered c := fun k c h =>
  let o := (sample_program false).classes k c h
  ⟨o.wf, o.simple, o.clash, o.pure⟩

/-- A mock of the sample: the required name is a mocked string, in particular not `None`. -/
example (n fuel : Nat) (I : Inst) (h : getMockObject sampleEnv sampleDice n fuel person [] = .ok I) :
    ∃ s, getAttr person I "name" = .ok (.str s) := by
  obtain ⟨v, w, hs, hw, hg⟩ := C103_values sampleEnv sample_ordered sampleDice n fuel person (sample_ordered "Person" person rfl) [] (fun _ h => by cases h)
    List.nodup_nil I h person.fields[0] (by simp [person])
  have hv : ∃ p l, sampleDice.leaf p l = some v := by
    cases hs with
    | override h => cases h
    | visited _ h => cases h
    | default _ h => cases h
    | choice _ h => cases h
    | mock _ _ h => cases h with
      | leaf h => exact ⟨_, _, h⟩
  obtain ⟨p, l, hv⟩ := hv
  simp only [sampleDice, Types.Mock.string] at hv
  cases hx : Types.Mock.valueIn (Types.Mock.lift none) (Types.Mock.lift (some 8)) 0 0 ((fun i => i * i + p.length) 0) with
  | none => rw [hx] at hv; cases hv
  | some m =>
    rw [hx] at hv
    simp only [Option.map_some] at hv
    injection hv with hv
    subst hv
    cases n with
    | zero => cases hw
    | succ n =>
      injection hw with hw
      subst hw
      exact ⟨_, hg⟩

end Verif.Mocks
