import Verif.Samples

/-!
# C66: polymorphic models
-/
namespace Verif

/-- `c` is a class that may be chosen: one of the listed classes or, with `allow_subclasses`, a subclass of one. -/
def Candidate (p : PolySpec) (env : Env) (c : String) : Prop :=
  ∃ m ∈ p.classes, c = m ∨ (p.allowSub = true ∧ c ∈ env.subs m)

/-- The class defines (or inherits) the hook `_claim_polymorphic`. -/
def HasHook (env : Env) (c : String) : Prop := ∃ f, env.claim c = some f

/-- The hook of the class claims the data. -/
def Claims (env : Env) (v : Val) (c : String) : Prop := ∃ f, env.claim c = some f ∧ f v = true

theorem mem_candidates (p : PolySpec) (env : Env) (c : String) : c ∈ p.candidates env ↔ Candidate p env c := by
  unfold PolySpec.candidates Candidate
  cases h : p.allowSub with
  | false => simp
  | true => simp

/-- The test made by the loop. -/
def claimsB (env : Env) (v : Val) (k : String) : Bool := match env.claim k with | some f => f v | none => false

theorem claimsB_iff (env : Env) (v : Val) (k : String) : claimsB env v k = true ↔ Claims env v k := by
  unfold claimsB Claims
  cases h : env.claim k with
  | none => simp
  | some f => simp

theorem filter_singleton {α : Type} (q : α → Bool) (k : α) : ∀ (xs : List α), xs.filter q = [k] ↔
    ∃ pre post, xs = pre ++ k :: post ∧ q k = true ∧ ∀ x ∈ pre ++ post, q x = false := by
  intro xs
  induction xs with
  | nil => simp
  | cons a xs ih =>
    by_cases ha : q a = true
    · rw [List.filter_cons_of_pos ha]
      constructor
      · intro h
        injection h with h1 h2
        subst h1
        refine ⟨[], xs, rfl, ha, ?_⟩
        intro x hx
        have := List.filter_eq_nil_iff.1 h2 x (by simpa using hx)
        simpa using this
      · rintro ⟨pre, post, e, hk, hn⟩
        cases pre with
        | nil =>
          injection e with e1 e2
          subst e1 e2
          have : xs.filter q = [] := by
            rw [List.filter_eq_nil_iff]
            intro x hx
            rw [hn x (by simpa using hx)]; simp
          rw [this]
        | cons b pre =>
          injection e with e1 e2
          subst e1
          have := hn a (by simp)
          rw [ha] at this; cases this
    · rw [List.filter_cons_of_neg ha, ih]
      have ha' : q a = false := by simpa using ha
      constructor
      · rintro ⟨pre, post, rfl, hk, hn⟩
        refine ⟨a :: pre, post, rfl, hk, ?_⟩
        intro x hx
        rcases List.mem_cons.1 hx with rfl | hx
        · exact ha'
        · exact hn x hx
      · rintro ⟨pre, post, e, hk, hn⟩
        cases pre with
        | nil =>
          injection e with e1 e2
          subst e1
          exact absurd hk ha
        | cons b pre =>
          injection e with e1 e2
          subst e1 e2
          exact ⟨pre, post, rfl, hk, fun x hx => hn x (by simp only [List.cons_append, List.mem_cons]; exact Or.inr hx)⟩

theorem find?_first {α : Type} (q : α → Bool) (k : α) : ∀ (xs : List α), xs.find? q = some k ↔
    ∃ pre post, xs = pre ++ k :: post ∧ q k = true ∧ ∀ x ∈ pre, q x = false := by
  intro xs
  induction xs with
  | nil => simp
  | cons a xs ih =>
    by_cases ha : q a = true
    · rw [List.find?_cons_of_pos ha]
      constructor
      · intro h; injection h with h; subst h; exact ⟨[], xs, rfl, ha, by simp⟩
      · rintro ⟨pre, post, e, hk, hn⟩
        cases pre with
        | nil => injection e with e1 e2; rw [e1]
        | cons b pre =>
          injection e with e1 e2
          subst e1
          have := hn a (by simp)
          rw [ha] at this; cases this
    · rw [List.find?_cons_of_neg ha, ih]
      have ha' : q a = false := by simpa using ha
      constructor
      · rintro ⟨pre, post, rfl, hk, hn⟩
        refine ⟨a :: pre, post, rfl, hk, ?_⟩
        intro x hx
        rcases List.mem_cons.1 hx with rfl | hx
        · exact ha'
        · exact hn x hx
      · rintro ⟨pre, post, e, hk, hn⟩
        cases pre with
        | nil => injection e with e1 e2; subst e1; exact absurd hk ha
        | cons b pre => injection e with e1 e2; subst e1 e2; exact ⟨pre, post, rfl, hk, fun x hx => hn x (by simp [hx])⟩

/-- **C66.**  Without a `claim_function`, `find_model` returns class `k` iff either `k` claims the data and no other entry of the candidate list does, or
no candidate claims it and `k` is the first candidate without the hook. -/
theorem C66_find_model (p : PolySpec) (env : Env) (hc : p.claim = none) (v : Val) (k : String) :
    p.findModel env v = .ok k ↔
      (∃ pre post, p.candidates env = pre ++ k :: post ∧ Claims env v k ∧ ∀ c ∈ pre ++ post, ¬ Claims env v c) ∨
      ((∀ c, Candidate p env c → ¬ Claims env v c) ∧
        ∃ pre post, p.candidates env = pre ++ k :: post ∧ ¬ HasHook env k ∧ ∀ c ∈ pre, HasHook env c) := by
  have hB : ∀ c, claimsB env v c = false ↔ ¬ Claims env v c := by
    intro c; rw [← claimsB_iff]; simp
  have hook : ∀ c, (env.claim c).isNone = true ↔ ¬ HasHook env c := by
    intro c; unfold HasHook; cases h : env.claim c <;> simp
  have hook' : ∀ c, (env.claim c).isNone = false ↔ HasHook env c := by
    intro c; unfold HasHook; cases h : env.claim c <;> simp
  have h1 : (∃ pre post, p.candidates env = pre ++ k :: post ∧ Claims env v k ∧ ∀ c ∈ pre ++ post, ¬ Claims env v c) ↔
      (p.candidates env).filter (claimsB env v) = [k] := by
    rw [filter_singleton]; simp only [claimsB_iff, hB]
  have h2 : (∃ pre post, p.candidates env = pre ++ k :: post ∧ ¬ HasHook env k ∧ ∀ c ∈ pre, HasHook env c) ↔
      ((p.candidates env).find? fun k => (env.claim k).isNone) = some k := by
    rw [find?_first]; simp only [hook, hook']
  have h3 : (∀ c, Candidate p env c → ¬ Claims env v c) ↔ (p.candidates env).filter (claimsB env v) = [] := by
    rw [List.filter_eq_nil_iff]; simp only [mem_candidates, claimsB_iff]
  rw [h1, h2, h3]
  unfold PolySpec.findModel
  rw [hc]
  show (match (p.candidates env).filter (claimsB env v), (p.candidates env).find? (fun k => (env.claim k).isNone) with
    | [], some k => (Except.ok k : R String) | [k], _ => .ok k | _, _ => .error (.other "Exception")) = .ok k ↔ _
  generalize (p.candidates env).filter (claimsB env v) = ms
  generalize ((p.candidates env).find? fun k => (env.claim k).isNone) = fb
  match ms, fb with
  | [], none => simp
  | [], some x => simp
  | [x], _ => simp
  | x :: y :: r, _ => simp

/-- The chosen class is always a candidate. -/
theorem C66_chosen_is_candidate (p : PolySpec) (env : Env) (hc : p.claim = none) (v : Val) (k : String) (h : p.findModel env v = .ok k) :
    Candidate p env k := by
  rw [C66_find_model p env hc] at h
  rw [← mem_candidates]
  rcases h with ⟨pre, post, e, -⟩ | ⟨-, pre, post, e, -⟩ <;> · rw [e]; simp

/-- With distinct candidates and one of them claiming the data, it is chosen iff no other class claims the data. -/
theorem C66_unique_claim (p : PolySpec) (env : Env) (hc : p.claim = none) (hn : (p.candidates env).Nodup) (v : Val) (k : String) (hk : Candidate p env k)
    (hcl : Claims env v k) : p.findModel env v = .ok k ↔ ∀ c, Candidate p env c → Claims env v c → c = k := by
  rw [C66_find_model p env hc]
  constructor
  · rintro (⟨pre, post, e, -, h⟩ | ⟨h, -⟩) c hcand hclaim
    · rw [← mem_candidates, e] at hcand
      rcases List.mem_append.1 hcand with hm | hm
      · exact absurd hclaim (h c (by simp [hm]))
      · rcases List.mem_cons.1 hm with rfl | hm
        · rfl
        · exact absurd hclaim (h c (by simp [hm]))
    · exact absurd hcl (h k hk)
  · intro h
    left
    rw [← mem_candidates] at hk
    obtain ⟨pre, post, e⟩ := List.append_of_mem hk
    refine ⟨pre, post, e, hcl, ?_⟩
    intro c hc' hclaim
    have hcc : c ∈ p.candidates env := by
      rw [e]
      rcases List.mem_append.1 hc' with hm | hm <;> simp [hm]
    have := h c ((mem_candidates p env c).1 hcc) hclaim
    subst this
    rw [e] at hn
    have := List.nodup_append.1 hn
    rcases List.mem_append.1 hc' with hm | hm
    · exact this.2.2 c hm c (by simp) rfl
    · exact (List.nodup_cons.1 this.2.1).1 hm

/-- **Importing data**: a mapping becomes an instance of the class that `find_model` chooses. -/
theorem C66_import_class (env : Env) (n : Nat) (ctx : Ctx) (named : Bool) (p : PolySpec) (o : FieldOpts) (d : Data) (w : Val) (hconv : ctx.conv = .imp)
    (h : fieldConv env (n + 1) ctx named (.mk (.poly p) o) (.dict d) = .ok w) :
    ∃ k c d', p.findModel env (.dict d) = .ok k ∧ env.cls k = some c ∧ w = .inst c.name d' := by
  have e : fieldConv env (n + 1) ctx named (.mk (.poly p) o) (.dict d) = polyConv (fieldConv env n) env ctx p (.dict d) := by
    simp [fieldConv, fieldConvF, requiredFails, Val.isEmpty, convertF, hconv]
  rw [e, polyConv] at h
  have ha : p.allowed env (.dict d) = false := rfl
  simp only [ha, Val.isDict, Bool.not_true, Bool.and_false, Bool.false_eq_true, if_false] at h
  cases hf : p.findModel env (.dict d) with
  | error e => rw [hf] at h; cases h
  | ok k =>
    rw [hf] at h
    simp only at h
    cases hk : env.cls k with
    | none => rw [hk] at h; cases h
    | some c =>
      rw [hk] at h
      simp only [newInstance] at h
      split at h
      · cases h
      · rename_i d' _
        cases h
        exact ⟨k, c, d', rfl, hk, rfl⟩

/-- An instance of an allowed class is imported as it is, without looking at its content. -/
theorem C66_instances_unchecked (env : Env) (n : Nat) (ctx : Ctx) (named : Bool) (p : PolySpec) (o : FieldOpts) (c : String) (d : Data)
    (hconv : ctx.conv = .imp) (hv : ctx.validate = false) (ha : p.allowed env (.inst c d) = true) :
    fieldConv env (n + 1) ctx named (.mk (.poly p) o) (.inst c d) = .ok (.inst c d) := by
  simp [fieldConv, fieldConvF, requiredFails, Val.isEmpty, convertF, polyConv, hconv, hv, ha]

/-! ## What fails -/

/-- `class A(Model)`, `class B(A)`; `B` claims everything. -/
def polyA : ClassDef := { name := "A", fields := [{ name := "x", field := Samples.intF }] }
/-- the subclass -/
def polyB : ClassDef := { name := "B", fields := [{ name := "x", field := Samples.intF }], claim := some fun _ => true }
/-- the two classes -/
def polyEnv : Env where
  cls k := if k = "A" then some polyA else if k = "B" then some polyB else none
  isSub a b := a == b || (a == "B" && b == "A")
  subs k := if k = "A" then ["B"] else []

/-- **A single claim can be ambiguous.**  `PolyModelType([A, B], allow_subclasses=True)` lists the subclass `B` twice, so data that only `B` claims is
"ambiguous". -/
theorem C66_counterexample_listed_twice : (∀ c, Candidate ⟨["A", "B"], true, none⟩ polyEnv c → Claims polyEnv (.dict []) c → c = "B") ∧
    Claims polyEnv (.dict []) "B" ∧ PolySpec.findModel ⟨["A", "B"], true, none⟩ polyEnv (.dict []) = .error (.other "Exception") := by
  refine ⟨?_, ⟨fun _ => true, rfl, rfl⟩, rfl⟩
  rintro c ⟨m, hm, rfl | ⟨-, hs⟩⟩ hcl
  · simp only [List.mem_cons, List.not_mem_nil, or_false] at hm
    rcases hm with rfl | rfl
    · obtain ⟨f, h, -⟩ := hcl; cases h
    · rfl
  · simp only [List.mem_cons, List.not_mem_nil, or_false] at hm
    rcases hm with rfl | rfl
    · simpa [polyEnv] using hs
    · simp [polyEnv] at hs

/-- **A failing `find_model` is no conversion error**: it raises a plain `Exception`, which no enclosing list, dict or model collects. -/
theorem C66_failure_not_collected (p : PolySpec) (env : Env) (v : Val) (e : Exc) (h : p.findModel env v = .error e) : e.caught = false := by
  unfold PolySpec.findModel at h
  cases hc : p.claim with
  | some f =>
    rw [hc] at h
    simp only at h
    cases hf : f v with
    | some k => rw [hf] at h; cases h
    | none => rw [hf] at h; cases h; rfl
  | none =>
    rw [hc] at h
    simp only at h
    split at h
    · cases h
    · cases h
    · cases h; rfl

/-- **A falsy value that is no mapping** is refused on import but, when validating, becomes an instance without data. -/
theorem C66_counterexample_falsy_value :
    fieldConv polyEnv 3 {} true (.mk (.poly ⟨["A"], false, none⟩) {}) (.int 0) = convErr "poly" ∧
    fieldConv polyEnv 3 { conv := .val, validate := true, init := true } true (.mk (.poly ⟨["A"], false, none⟩) {}) (.int 0) =
      .ok (.inst "A" [(.str "x", .none)]) := ⟨rfl, rfl⟩

/-! ## The hypotheses are met -/

example : PolySpec.findModel ⟨["A"], true, none⟩ polyEnv (.dict []) = .ok "B" ∧ (PolySpec.candidates ⟨["A"], true, none⟩ polyEnv).Nodup ∧
    Candidate ⟨["A"], true, none⟩ polyEnv "B" ∧ Claims polyEnv (.dict []) "B" :=
  ⟨rfl, by decide, ⟨"A", by simp, Or.inr ⟨rfl, by decide⟩⟩, ⟨_, rfl, rfl⟩⟩
example : PolySpec.findModel ⟨["A"], false, none⟩ polyEnv (.dict []) = .ok "A" := rfl
example : fieldConv polyEnv 3 {} true (.mk (.poly ⟨["A"], true, none⟩) {}) (.dict [(.str "x", .int 1)]) = .ok (.inst "B" [(.str "x", .int 1)]) := rfl

end Verif
