import Verif.Lib.Callable

/-!
# C81: validators with and without a `context` parameter
-/
namespace Verif.Lib.Callable

variable {α : Type}

/-- The validators of one place of definition: the library calls them with the arguments `args` and the context `ctx` as the last one, and
prepares them for that number of arguments.  Two for a function given as `validators=[…]` (`value, context`), three for a method `validate_…` of a
type (`self, value, context`), four for a method `validate_…` of a model (`instance, data, value, context`). -/
def run (f : Func) (args : List α) (ctx : α) : Option (List (Option String × α)) :=
  (prepare (.user f) (args.length + 1)).call (fun _ => false) (args ++ [ctx]) none

theorem prepare_user (f : Func) (n : Nat) : prepare (.user f) n = if f.params.length < n then .wrapped (.user f) else .user f := rfl

/-- A plain function: not bound to an object and without `*args`. -/
structure Plain (f : Func) : Prop where
  unbound : f.bound = false
  fixed : f.varargs = false

/-- The arguments a function body receives when its parameters are filled in order. -/
def filled (ps : List String) (xs : List α) : List (Option String × α) := (ps.map some).zip xs

theorem call_plain (f : Func) (h : Plain f) (args : List α) :
    f.call args none = if args.length ≤ f.params.length ∧ f.params.length - args.length ≤ f.defaults then some (filled f.params args) else none := by
  unfold Func.call Func.open filled
  simp only [h.unbound, h.fixed, Bool.false_eq_true, if_false, and_true, List.length_drop]
  by_cases h1 : f.params.length < args.length
  · rw [if_pos h1, if_neg (by omega)]
  · rw [if_neg h1]
    have e : args.length - f.params.length = 0 := by omega
    simp only [e, List.replicate_zero, List.append_nil]
    by_cases h2 : f.params.length - args.length ≤ f.defaults
    · rw [if_pos h2, if_pos ⟨by omega, h2⟩]
    · rw [if_neg h2, if_neg (by omega)]

/-- **C81.** A plain function is given the context exactly when it declares a parameter for it: with as many parameters as there are arguments
before the context, it is called without the context; with one more, or with further parameters that have default values, it is called with it;
with fewer parameters, or with further parameters without default values, the call is a `TypeError`. -/
theorem C81_context_iff_declared (f : Func) (h : Plain f) (args : List α) (ctx : α) :
    (f.params.length = args.length → run f args ctx = some (filled f.params args)) ∧
    (args.length < f.params.length → f.params.length ≤ args.length + 1 + f.defaults →
      run f args ctx = some (filled f.params (args ++ [ctx]))) ∧
    (f.params.length < args.length → run f args ctx = none) ∧
    (args.length + 1 + f.defaults < f.params.length → run f args ctx = none) := by
  unfold run
  rw [prepare_user]
  refine ⟨fun e => ?_, fun l1 l2 => ?_, fun l => ?_, fun l => ?_⟩
  · rw [if_pos (by omega)]
    simp only [Ready.call, List.dropLast_concat]
    rw [call_plain f h, if_pos (by omega)]
  · rw [if_neg (by omega)]
    simp only [Ready.call]
    rw [call_plain f h]
    simp only [List.length_append, List.length_cons, List.length_nil]
    rw [if_pos (by omega)]
  · rw [if_pos (by omega)]
    simp only [Ready.call, List.dropLast_concat]
    rw [call_plain f h, if_neg (by omega)]
  · rw [if_neg (by omega)]
    simp only [Ready.call]
    rw [call_plain f h]
    simp only [List.length_append, List.length_cons, List.length_nil]
    rw [if_neg (by omega)]

/-- **C81.** In particular whatever a plain function receives is a prefix of the arguments and the context, filled in the order of its parameters:
no validator sees the context in the place of the value. -/
theorem C81_arguments_in_order (f : Func) (h : Plain f) (args : List α) (ctx : α) (r : List (Option String × α)) (hr : run f args ctx = some r) :
    r.map Prod.snd = args ∨ r.map Prod.snd = args ++ [ctx] := by
  obtain ⟨h1, h2, h3, h4⟩ := C81_context_iff_declared f h args ctx
  have e : ∀ (ps : List String) (xs : List α), xs.length ≤ ps.length → (filled ps xs).map Prod.snd = xs := by
    intro ps xs hl
    unfold filled
    rw [List.map_snd_zip]
    simpa using hl
  by_cases l : f.params.length < args.length
  · rw [h3 l] at hr; cases hr
  · by_cases l1 : f.params.length = args.length
    · rw [h1 l1] at hr; cases hr; exact Or.inl (e _ _ (by omega))
    · by_cases l2 : args.length + 1 + f.defaults < f.params.length
      · rw [h4 l2] at hr; cases hr
      · rw [h2 (by omega) (by omega)] at hr; cases hr
        exact Or.inr (e _ _ (by simp; omega))

theorem zip_none (xs : List α) : (List.replicate xs.length (none : Option String)).zip xs = xs.map fun a => (none, a) := by
  induction xs with
  | nil => rfl
  | cons x xs ih => simp [List.replicate_succ, ih]

/-- **C81.** A function that declares only `*args` is never given the context. -/
theorem C81_varargs_without_context (f : Func) (hp : f.params = []) (hv : f.varargs = true) (hb : f.bound = false) (args : List α) (ctx : α) :
    run f args ctx = some (args.map fun a => (none, a)) := by
  unfold run
  rw [prepare_user]
  rw [if_pos (by rw [hp]; simp)]
  simp only [Ready.call, List.dropLast_concat, Func.call, Func.open, hb, hp, hv]
  simp only [List.map_nil, List.nil_append, Nat.sub_zero, List.drop_nil, Nat.zero_le, if_true]
  simp [zip_none]

/-- **C81.** A bound method (or an object with `__call__`) whose parameters after `self` are those of a plain function that would do without the
context is given the context all the same, because `self` is counted: the call is a `TypeError`. -/
theorem C81_counterexample_bound (self : String) (ps : List String) (args : List α) (ctx : α) (hl : ps.length = args.length) :
    run { params := ps } args ctx = some (filled ps args) ∧ run { params := self :: ps, bound := true } args ctx = none := by
  refine ⟨(C81_context_iff_declared _ ⟨rfl, rfl⟩ args ctx).1 hl, ?_⟩
  unfold run
  rw [prepare_user]
  rw [if_neg (by simp; omega)]
  simp [Ready.call, Func.call, Func.open, hl]

/-- **C81.** A bound method that declares the context after its other parameters receives everything. -/
theorem C81_bound_with_context (self : String) (ps : List String) (args : List α) (ctx : α) (hl : ps.length = args.length + 1) :
    run { params := self :: ps, bound := true } args ctx = some (filled ps (args ++ [ctx])) := by
  unfold run
  rw [prepare_user]
  rw [if_neg (by simp; omega)]
  have e : args.length + 1 - ps.length = 0 := by omega
  have e2 : List.drop (args.length + 1) ps = [] := by rw [List.drop_eq_nil_iff]; omega
  simp [Ready.call, Func.call, Func.open, filled, hl, e2]

/-- **C81.** Called with the context by keyword, a validator without a context parameter is called with all its other arguments (unless the context
given equals zero, see below), and one with a `context` parameter receives it. -/
theorem C81_context_by_keyword (isZero : α → Bool) (f : Func) (h : Plain f) (args : List α) (ctx : α) (hz : isZero ctx = false) :
    (f.params.length = args.length → (prepare (.user f) (args.length + 1)).call isZero args (some ctx) = some (filled f.params args)) ∧
    (f.params.length = args.length + 1 → f.params.getLast? = some "context" →
      (prepare (.user f) (args.length + 1)).call isZero args (some ctx) = some (filled f.params (args ++ [ctx]))) := by
  constructor
  · intro e
    rw [prepare_user]
    rw [if_pos (by omega)]
    simp only [Ready.call, hz, Bool.false_eq_true, if_false]
    rw [call_plain f h, if_pos (by omega)]
  · intro e hl
    rw [prepare_user]
    rw [if_neg (by omega)]
    simp only [Ready.call]
    obtain ⟨init, e'⟩ : ∃ init, f.params = init ++ ["context"] := by
      rw [List.getLast?_eq_some_iff] at hl; exact hl
    have hi : init.length = args.length := by rw [e'] at e; simpa using e
    have hd : f.params.drop args.length = ["context"] := by rw [e', ← hi]; simp
    unfold Func.call Func.open
    simp only [h.unbound, h.fixed, Bool.false_eq_true, if_false, and_true, e, hd]
    rw [if_neg (by omega)]
    simp only [List.mem_singleton, if_true, List.length_cons, List.length_nil]
    rw [if_pos]
    · have hs : args.length - (args.length + 1) = 0 := by omega
      have hz : (init.map some ++ [some "context"]).zip args = (init.map some).zip args := by
        have := List.zip_append (l₁ := init.map some) (r₁ := [some "context"]) (l₂ := args) (r₂ := ([] : List α)) (by simpa using hi)
        simpa using this
      simp [filled, e', List.map_append, hi, List.zip_append, hs, hz]
    · intro i hi'
      have : i = 0 := by omega
      subst this; simp

/-- **C81.** A validator with further parameters receives the context by keyword, and then only the arguments before it and the context, iff one
of the parameters after those arguments is named `context` and all others of them have default values; else the call is a `TypeError`. -/
theorem C81_keyword_needs_a_context_parameter (isZero : α → Bool) (f : Func) (h : Plain f) (args : List α) (ctx : α)
    (hl : args.length < f.params.length) :
    ((∃ i, args.length ≤ i ∧ f.params[i]? = some "context") ∧
        (∀ i, args.length ≤ i → i < f.params.length - f.defaults → f.params[i]? = some "context") →
      (prepare (.user f) (args.length + 1)).call isZero args (some ctx) = some (filled f.params args ++ [(some "context", ctx)])) ∧
    (¬ ((∃ i, args.length ≤ i ∧ f.params[i]? = some "context") ∧
        (∀ i, args.length ≤ i → i < f.params.length - f.defaults → f.params[i]? = some "context")) →
      (prepare (.user f) (args.length + 1)).call isZero args (some ctx) = none) := by
  rw [prepare_user, if_neg (by omega)]
  simp only [Ready.call]
  unfold Func.call Func.open
  simp only [h.unbound, h.fixed, Bool.false_eq_true, if_false, and_true]
  rw [if_neg (by omega)]
  have e : args.length - f.params.length = 0 := by omega
  have hmem : "context" ∈ f.params.drop args.length ↔ ∃ i, args.length ≤ i ∧ f.params[i]? = some "context" := by
    rw [List.mem_iff_getElem?]
    constructor
    · rintro ⟨i, hi⟩; rw [List.getElem?_drop] at hi; exact ⟨_, Nat.le_add_right _ _, hi⟩
    · rintro ⟨i, h1, h2⟩; exact ⟨i - args.length, by rw [List.getElem?_drop, Nat.add_sub_cancel' h1]; exact h2⟩
  have hall : (∀ i < (f.params.drop args.length).length, (f.params.drop args.length)[i]? = some "context" ∨
      (f.params.drop args.length).length - f.defaults ≤ i) ↔
      ∀ i, args.length ≤ i → i < f.params.length - f.defaults → f.params[i]? = some "context" := by
    simp only [List.length_drop, List.getElem?_drop]
    constructor
    · intro hh i h1 h2
      rcases hh (i - args.length) (by omega) with h3 | h3
      · rw [Nat.add_sub_cancel' h1] at h3; exact h3
      · omega
    · intro hh i h1
      by_cases h2 : args.length + i < f.params.length - f.defaults
      · exact Or.inl (hh _ (by omega) h2)
      · exact Or.inr (by omega)
  constructor
  · rintro ⟨h1, h2⟩
    rw [if_pos (hmem.2 h1), if_pos (hall.2 h2)]
    simp [filled, e]
  · intro hn
    by_cases h1 : "context" ∈ f.params.drop args.length
    · rw [if_pos h1, if_neg fun h2 => hn ⟨hmem.1 h1, hall.1 h2⟩]
    · rw [if_neg h1]

/-- **C81.** …and a context that equals zero, given by keyword, costs such a validator its last proper argument. -/
theorem C81_counterexample_zero_keyword :
    (prepare (.user { params := ["value"] }) 2).call (fun c : Nat => c == 0) [7] (some 0) = none ∧
    (prepare (.user { params := ["value"] }) 2).call (fun c : Nat => c == 0) [7] (some 5) = some [(some "value", 7)] := by
  decide

/-- **C81.** A validator without a context parameter that was prepared already and is prepared again (for instance because one type hands its
`validators` list to another) loses a proper argument: the wrapper declares no parameters, so it is wrapped once more. -/
theorem C81_counterexample_prepared_twice (isZero : α → Bool) (f : Func) (h : Plain f) (hd : f.defaults = 0) (args : List α) (ctx : α)
    (hl : f.params.length = args.length) (hn : args ≠ []) :
    (prepare (.user f) (args.length + 1)).call isZero (args ++ [ctx]) none = some (filled f.params args) ∧
    (prepare (prepare (.user f) (args.length + 1)) (args.length + 1)).call isZero (args ++ [ctx]) none = none := by
  have hp : 0 < args.length := List.length_pos_iff.2 hn
  rw [prepare_user, if_pos (show f.params.length < args.length + 1 by omega)]
  have e : prepare (.wrapped (.user f)) (args.length + 1) = .wrapped (.wrapped (.user f)) := by
    unfold prepare; rw [if_pos]; simp only [Ready.spec, List.length_nil]; omega
  rw [e]
  simp only [Ready.call, List.dropLast_concat]
  rw [call_plain f h, call_plain f h, if_pos (by omega), if_neg (by simp only [List.length_dropLast]; omega)]
  exact ⟨rfl, rfl⟩

/-! The hypotheses are met. -/

example : run { params := ["value"] } [1] 9 = some [(some "value", 1)] := rfl
example : run { params := ["value", "context"] } [1] 9 = some [(some "value", 1), (some "context", 9)] := rfl
example : run { params := ["self", "value"] } [0, 1] 9 = some [(some "self", 0), (some "value", 1)] := rfl
/-- A class method of a model receives the instance in the place of the class. -/
example : run { params := ["cls", "data", "value", "context"] } [0, 1, 2] 9 =
    some [(some "cls", 0), (some "data", 1), (some "value", 2), (some "context", 9)] := rfl
example : run { params := ["value", "context", "extra"], defaults := 1 } [1] 9 = some [(some "value", 1), (some "context", 9)] := rfl
example : Plain { params := ["value", "context", "extra"], defaults := 1 } := ⟨rfl, rfl⟩

example : (prepare (.user { params := ["value", "strict", "context"], defaults := 2 }) 2).call (fun _ => false) [1] (some 9) =
    some [(some "value", 1), (some "context", 9)] :=
  (C81_keyword_needs_a_context_parameter _ _ ⟨rfl, rfl⟩ [1] 9 (by decide)).1 ⟨⟨2, by decide, rfl⟩, by
    intro i h1 h2; simp at h1 h2; omega⟩

end Verif.Lib.Callable
