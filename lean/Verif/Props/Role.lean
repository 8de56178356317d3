import Verif.Lib.Role

/-! # Role algebra (C26) -/
namespace Verif

/-! ## Specification vocabulary -/

/-- Which names a role with the given filtering behaviour and set of names `S` hides. -/
def Hides (k : RoleKind) (S : String → Prop) (name : String) : Prop :=
  match k with
  | .whole => False
  | .white => ¬ S name
  | .black => S name

/-- `r` is a role of kind `k` whose set of names is `S`. -/
def Role.Is (r : Role) (k : RoleKind) (S : String → Prop) : Prop :=
  r.kind = k ∧ ∀ name, r.mem name = true ↔ S name

/-- **C26** (decisions). A role hides a field exactly as its kind and the membership of the
field's name in its set of names say, whatever the value; the empty set is no exception. -/
theorem C26_decision_by_membership (r : Role) (k : RoleKind) (S : String → Prop) (h : r.Is k S)
    (name : String) (v : Val) : r.fn name v = true ↔ Hides k S name := by
  obtain ⟨rfl, hS⟩ := h
  have hS := hS name
  obtain ⟨k, fs⟩ := r
  simp only [Role.fn, Role.mem] at *
  cases k
  · simp [Role.skip, Hides]
  · cases fs with
    | nil => simpa [Role.skip, Hides] using hS
    | cons f fs => simp only [Role.skip, Hides]; rw [← hS]; simp
  · cases fs with
    | nil => simpa [Role.skip, Hides] using hS
    | cons f fs => simp only [Role.skip, Hides]; rw [← hS]; simp

/-- **C26** (`+`). Adding names is set union and keeps the filtering behaviour. -/
theorem C26_add (r : Role) (k : RoleKind) (S : String → Prop) (h : r.Is k S) (names : List String) :
    (r.add names).Is k (fun n => S n ∨ n ∈ names) := by
  refine ⟨h.1, fun n => ?_⟩
  simp only []
  rw [← h.2 n]; simp [Role.add, Role.mem]

/-- **C26** (`-`). Subtracting names is set difference and keeps the filtering behaviour. -/
theorem C26_sub (r : Role) (k : RoleKind) (S : String → Prop) (h : r.Is k S) (names : List String) :
    (r.sub names).Is k (fun n => S n ∧ n ∉ names) := by
  refine ⟨h.1, fun n => ?_⟩
  simp only []
  rw [← h.2 n]; simp [Role.sub, Role.mem]

/-- **C26** (set operators). The other set operators keep the filtering behaviour of the left
operand, whatever the kind of the right one. -/
theorem C26_set_operators (r s : Role) (k k' : RoleKind) (S T : String → Prop) (hr : r.Is k S) (hs : s.Is k' T) :
    (r.union s.fields).Is k (fun n => S n ∨ T n) ∧
    (r.inter s.fields).Is k (fun n => S n ∧ T n) ∧
    (r.xor s).Is k (fun n => (S n ∧ ¬ T n) ∨ (T n ∧ ¬ S n)) ∧
    (r.le s = true ↔ ∀ n, S n → T n) := by
  refine ⟨⟨hr.1, fun n => ?_⟩, ⟨hr.1, fun n => ?_⟩, ⟨hr.1, fun n => ?_⟩, ?_⟩
  · simp only []; rw [← hr.2 n, ← hs.2 n]; simp [Role.union, Role.mem]
  · simp only []; rw [← hr.2 n, ← hs.2 n]; simp [Role.inter, Role.mem, and_comm]
  · simp only []; rw [← hr.2 n, ← hs.2 n]; simp [Role.xor, Role.sub, Role.union, Role.mem]
  · simp only [Role.le, List.all_eq_true]
    constructor
    · intro h n hn
      exact (hs.2 n).1 (h n (by have := (hr.2 n).2 hn; simpa [Role.mem] using this))
    · intro h n hn
      exact (hs.2 n).2 (h n ((hr.2 n).1 (by simpa [Role.mem] using hn)))

/-- **C26** (equality). Two roles are equal iff they have the same kind and the same names;
equal roles hide the same fields. -/
theorem C26_equality (r s : Role) :
    (r.eq s = true ↔ r.kind = s.kind ∧ ∀ n, r.mem n = s.mem n) ∧
    (r.eq s = true → ∀ n v, r.fn n v = s.fn n v) := by
  have h1 : r.eq s = true ↔ r.kind = s.kind ∧ ∀ n, r.mem n = s.mem n := by
    simp only [Role.eq, Bool.and_eq_true, List.all_eq_true, beq_iff_eq, and_assoc, Role.mem]
    constructor
    · rintro ⟨hk, h1, h2⟩
      refine ⟨hk, fun n => ?_⟩
      rw [Bool.eq_iff_iff]
      exact ⟨fun h => h1 n (by simpa using h), fun h => h2 n (by simpa using h)⟩
    · rintro ⟨hk, h⟩
      exact ⟨hk, fun n hn => by rw [← h]; simpa using hn, fun n hn => by rw [h]; simpa using hn⟩
  refine ⟨h1, fun h n v => ?_⟩
  obtain ⟨hk, hm⟩ := h1.1 h
  rw [Bool.eq_iff_iff,
    C26_decision_by_membership r r.kind (fun n => r.mem n = true) ⟨rfl, fun _ => Iff.rfl⟩,
    C26_decision_by_membership s r.kind (fun n => r.mem n = true) ⟨hk.symm, fun n => by simp only []; rw [hm]⟩]

/-- The hypotheses are met: a whitelist of two names is a role of kind `white` with these names,
and removing all names hides everything. -/
example : (Role.mk .white ["a", "b"]).Is .white (fun n => n = "a" ∨ n = "b") :=
  ⟨rfl, fun n => by simp [Role.mem]⟩
example : ((Role.mk .white ["a", "b"]).sub ["a", "b"]).fn "a" .none = true ∧
    ((Role.mk .black ["a"]).add ["b"]).fn "b" .none = true ∧
    ((Role.mk .black ["a"]).sub ["a"]).fn "a" .none = false := by decide

end Verif
