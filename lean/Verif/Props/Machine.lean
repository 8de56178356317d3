import Verif.Lib.Machine

/-!
# C74: the state machine runs the pipeline in order
-/
namespace Verif.Lib.Machine

variable {D E : Type}

/-- What the data must be in a state: the original data after the steps of the pipeline that lead there, all of which succeeded. -/
def Reached (cb : Callbacks D E) (d : D) (m : Machine D) : Prop :=
  (m.state = "raw" ∧ m.data = d) ∨
  (m.state = "converted" ∧ cb.convert d = .ok m.data) ∨
  (m.state = "validated" ∧ ∃ a, cb.convert d = .ok a ∧ cb.validate a = .ok m.data) ∨
  (m.state = "serialized" ∧ ∃ a b, cb.convert d = .ok a ∧ cb.validate a = .ok b ∧ cb.serialize b = .ok m.data)

/-- The step that leads on from a state, and where to. -/
def next : String → Option (String × String)
  | "raw" => some ("convert", "converted")
  | "converted" => some ("validate", "validated")
  | "validated" => some ("serialize", "serialized")
  | _ => none

/-- The only states of a machine. -/
def isState (s : String) : Prop := s = "raw" ∨ s = "converted" ∨ s = "validated" ∨ s = "serialized"

theorem transition_next {s : String} (hs : isState s) (name : String) :
    transition (some name) (some s) none = match next s with
      | some (n, t) => if name = n then some ⟨n, some s, t⟩ else none
      | none => none := by
  have hb : ∀ x : String, (some x == some name) = decide (x = name) := by
    intro x; by_cases h : x = name <;> simp [h]
  rcases hs with rfl | rfl | rfl | rfl
  · by_cases h : name = "convert"
    · subst h; decide
    · simp [transition, transitions, matchesArg, hb, next, Ne.symm h, h]
  · by_cases h : name = "validate"
    · subst h; decide
    · simp [transition, transitions, matchesArg, hb, next, Ne.symm h, h]
  · by_cases h : name = "serialize"
    · subst h; decide
    · simp [transition, transitions, matchesArg, hb, next, Ne.symm h, h]
  · simp [transition, transitions, matchesArg, next]

theorem reached_isState {cb : Callbacks D E} {d : D} {m : Machine D} (h : Reached cb d m) : isState m.state := by
  rcases h with ⟨h, _⟩ | ⟨h, _⟩ | ⟨h, _⟩ | ⟨h, _⟩ <;> rw [h] <;> simp [isState]

/-- **C74, every history**: after any sequence of triggers, successful or not, of any names, the data is the original data after exactly the
steps of the pipeline that lead to the present state, each of which succeeded. -/
theorem C74_history (cb : Callbacks D E) (d : D) (m : Machine D) (hm : start d = some m) (names : List String) : Reached cb d (fireAll cb m names) := by
  have h0 : Reached cb d m := by cases hm; exact Or.inl ⟨rfl, rfl⟩
  clear hm
  induction names generalizing m with
  | nil => exact h0
  | cons n r ih =>
    refine ih _ ?_
    unfold fire
    rw [transition_next (reached_isState h0)]
    rcases h0 with ⟨h, h1⟩ | ⟨h, h1⟩ | ⟨h, a, h1, h2⟩ | ⟨h, a, b, h1, h2, h3⟩
    · simp only [h, next]
      by_cases hn : n = "convert"
      · subst hn
        simp only [if_true, Callbacks.find]
        rw [h1]
        cases hc : cb.convert d with
        | error e => exact Or.inl ⟨h, h1⟩
        | ok a => exact Or.inr (Or.inl ⟨rfl, hc⟩)
      · simp only [hn, if_false]; exact Or.inl ⟨h, h1⟩
    · simp only [h, next]
      by_cases hn : n = "validate"
      · subst hn
        have e : cb.find "validate" = some cb.validate := by simp [Callbacks.find]
        simp only [if_true, e]
        cases hc : cb.validate m.data with
        | error e => exact Or.inr (Or.inl ⟨h, h1⟩)
        | ok a => exact Or.inr (Or.inr (Or.inl ⟨rfl, _, h1, hc⟩))
      · simp only [hn, if_false]; exact Or.inr (Or.inl ⟨h, h1⟩)
    · simp only [h, next]
      by_cases hn : n = "serialize"
      · subst hn
        have e : cb.find "serialize" = some cb.serialize := by simp [Callbacks.find]
        simp only [if_true, e]
        cases hc : cb.serialize m.data with
        | error e => exact Or.inr (Or.inr (Or.inl ⟨h, a, h1, h2⟩))
        | ok b => exact Or.inr (Or.inr (Or.inr ⟨rfl, a, _, h1, h2, hc⟩))
      · simp only [hn, if_false]; exact Or.inr (Or.inr (Or.inl ⟨h, a, h1, h2⟩))
    · simp only [h, next]; exact Or.inr (Or.inr (Or.inr ⟨h, a, b, h1, h2, h3⟩))

/-- **C74, one trigger**: in every reachable state a trigger succeeds iff it names the next step and the transformation succeeds; then
the machine moves on with the new data. Otherwise the machine is unchanged; a name that is not the next step is an `AttributeError`. -/
theorem C74_step (cb : Callbacks D E) (m : Machine D) (hs : isState m.state) (name : String) :
    match next m.state with
    | none => fire cb m name = (m, .attributeError)
    | some (n, t) =>
      if name = n then
        ∃ f, cb.find n = some f ∧ match f m.data with
          | .ok d => fire cb m name = (⟨t, d⟩, .done)
          | .error e => fire cb m name = (m, .raised e)
      else fire cb m name = (m, .attributeError) := by
  unfold fire
  rw [transition_next hs]
  rcases hs with h | h | h | h <;> simp only [h, next]
  · by_cases hn : name = "convert"
    · subst hn
      simp only [if_true]
      refine ⟨cb.convert, rfl, ?_⟩
      have e : cb.find "convert" = some cb.convert := rfl
      simp only [e]
      cases cb.convert m.data <;> simp
    · simp [hn]
  · by_cases hn : name = "validate"
    · subst hn
      simp only [if_true]
      refine ⟨cb.validate, by simp [Callbacks.find], ?_⟩
      have e : cb.find "validate" = some cb.validate := by simp [Callbacks.find]
      simp only [e]
      cases cb.validate m.data <;> simp
    · simp [hn]
  · by_cases hn : name = "serialize"
    · subst hn
      simp only [if_true]
      refine ⟨cb.serialize, by simp [Callbacks.find], ?_⟩
      have e : cb.find "serialize" = some cb.serialize := by simp [Callbacks.find]
      simp only [e]
      cases cb.serialize m.data <;> simp
    · simp [hn]
  · rfl

/-- **C74, prediction**: `can(s)` is true iff some trigger, with some transformations, moves the machine to `s`. -/
theorem C74_can (m : Machine D) (hs : isState m.state) (s : String) :
    can m s = true ↔ ∃ (name : String) (cb : Callbacks D Unit), (fire cb m name).2 = .done ∧ (fire cb m name).1.state = s := by
  have hcan : can m s = true ↔ ∃ n, next m.state = some (n, s) := by
    unfold can
    have hb : ∀ x : String, (some x == some s) = decide (x = s) := by
      intro x; by_cases h : x = s <;> simp [h]
    rcases hs with h | h | h | h <;> simp [h, transition, transitions, matchesArg, hb, next, List.find?] <;> split <;> simp_all
  rw [hcan]
  constructor
  · rintro ⟨n, hn⟩
    refine ⟨n, ⟨.ok, .ok, .ok⟩, ?_⟩
    have := C74_step (⟨.ok, .ok, .ok⟩ : Callbacks D Unit) m hs n
    rw [hn] at this
    simp only [if_true] at this
    obtain ⟨f, hf, h⟩ := this
    have hf' : f = .ok := by
      unfold Callbacks.find at hf
      split at hf
      · cases hf; rfl
      · split at hf
        · cases hf; rfl
        · split at hf
          · cases hf; rfl
          · cases hf
    subst hf'
    simp only at h
    rw [h]
    simp
  · rintro ⟨name, cb, h1, h2⟩
    have := C74_step cb m hs name
    cases hn : next m.state with
    | none => rw [hn] at this; simp only at this; rw [this] at h1; cases h1
    | some p =>
      obtain ⟨n, t⟩ := p
      rw [hn] at this
      simp only at this
      split at this
      · obtain ⟨f, -, h⟩ := this
        cases hf : f m.data with
        | error e => rw [hf] at h; simp only at h; rw [h] at h1; cases h1
        | ok d =>
          rw [hf] at h; simp only at h
          rw [h] at h2
          simp only at h2
          exact ⟨n, by rw [h2]⟩
      · rw [this] at h1; cases h1

/-- **C74, end of the pipeline**: a machine whose three steps succeed ends up serialized with the composed result, and then refuses everything. -/
theorem C74_complete (cb : Callbacks D E) (d a b c : D) (m : Machine D) (hm : start d = some m) (h1 : cb.convert d = .ok a) (h2 : cb.validate a = .ok b)
    (h3 : cb.serialize b = .ok c) (rest : List String) :
    fireAll cb m (["convert", "validate", "serialize"] ++ rest) = ⟨"serialized", c⟩ := by
  cases hm
  have e1 : (fire cb ⟨"raw", d⟩ "convert").1 = ⟨"converted", a⟩ := by
    have := C74_step cb ⟨"raw", d⟩ (Or.inl rfl) "convert"
    simp only [next, if_true] at this
    obtain ⟨f, hf, h⟩ := this
    have : f = cb.convert := by have e : cb.find "convert" = some cb.convert := rfl; rw [e] at hf; cases hf; rfl
    subst this
    rw [h1] at h; simp only at h; rw [h]
  have e2 : (fire cb ⟨"converted", a⟩ "validate").1 = ⟨"validated", b⟩ := by
    have := C74_step cb ⟨"converted", a⟩ (Or.inr (Or.inl rfl)) "validate"
    simp only [next, if_true] at this
    obtain ⟨f, hf, h⟩ := this
    have : f = cb.validate := by have e : cb.find "validate" = some cb.validate := by simp [Callbacks.find]
                                 rw [e] at hf; cases hf; rfl
    subst this
    rw [h2] at h; simp only at h; rw [h]
  have e3 : (fire cb ⟨"validated", b⟩ "serialize").1 = ⟨"serialized", c⟩ := by
    have := C74_step cb ⟨"validated", b⟩ (Or.inr (Or.inr (Or.inl rfl))) "serialize"
    simp only [next, if_true] at this
    obtain ⟨f, hf, h⟩ := this
    have : f = cb.serialize := by have e : cb.find "serialize" = some cb.serialize := by simp [Callbacks.find]
                                  rw [e] at hf; cases hf; rfl
    subst this
    rw [h3] at h; simp only at h; rw [h]
  have e4 : ∀ l : List String, fireAll cb ⟨"serialized", c⟩ l = ⟨"serialized", c⟩ := by
    intro l
    induction l with
    | nil => rfl
    | cons n r ih =>
      have := C74_step cb ⟨"serialized", c⟩ (Or.inr (Or.inr (Or.inr rfl))) n
      simp only [next] at this
      unfold fireAll
      rw [this]
      exact ih
  show fireAll cb ⟨"raw", d⟩ ("convert" :: "validate" :: "serialize" :: rest) = _
  simp only [fireAll, e1, e2, e3, e4]

/-! ## The hypotheses are met -/

/-- A pipeline on numbers that fails to validate odd ones. -/
def sampleCb : Callbacks Nat String :=
  ⟨fun n => .ok (n + 1), fun n => if n % 2 = 0 then .ok n else .error "odd", fun n => .ok (n * 10)⟩

example : fireAll sampleCb ⟨"raw", 1⟩ ["validate", "init", "convert", "convert", "nonsense", "validate", "serialize"] = ⟨"serialized", 20⟩ := by decide
example : fireAll sampleCb ⟨"raw", 2⟩ ["convert", "validate", "serialize"] = ⟨"converted", 3⟩ := by decide
example : (start 1 : Option (Machine Nat)) = some ⟨"raw", 1⟩ := by decide
example : can (⟨"raw", 1⟩ : Machine Nat) "converted" = true ∧ can (⟨"raw", 1⟩ : Machine Nat) "raw" = false := by decide

end Verif.Lib.Machine
