import Verif.Py.Regex

/-!
# What expressions with assertions and groups match

`Re.MeansC` extends `Re.run_iff` to expressions with groups and to those with assertions that only look at the text they match.
-/
namespace Verif.Py

/-- `y` is reached from `x` by passing the text `w` and recording the groups `cs` (latest first). -/
def St.StepC (x : St) (w : List Char) (cs : List (String × List Char)) (y : St) : Prop :=
  x.rest = w ++ y.rest ∧ y.before = w.reverse ++ x.before ∧ y.caps = cs ++ x.caps

/-- The expression matches exactly the texts `w` with groups `cs` such that `P w cs`, wherever it stands. -/
def Re.MeansC (r : Re) (P : List Char → List (String × List Char) → Prop) : Prop :=
  ∀ x y, y ∈ r.run x ↔ ∃ w cs, P w cs ∧ x.StepC w cs y

/-- The expression matches exactly the texts `w` such that `P w`, wherever it stands, and has no groups. -/
def Re.Means (r : Re) (P : List Char → Prop) : Prop := ∀ x y, y ∈ r.run x ↔ ∃ w, P w ∧ x.Step w y

theorem St.StepC.trans {x y z : St} {u v : List Char} {cs ds} (h1 : x.StepC u cs y) (h2 : y.StepC v ds z) : x.StepC (u ++ v) (ds ++ cs) z := by
  obtain ⟨a1, a2, a3⟩ := h1
  obtain ⟨b1, b2, b3⟩ := h2
  exact ⟨by rw [a1, b1, List.append_assoc], by rw [b2, a2, List.reverse_append, List.append_assoc], by rw [b3, a3, List.append_assoc]⟩

theorem St.StepC.next {x z : St} {u v : List Char} {cs ds} (h : x.StepC (u ++ v) (ds ++ cs) z) : ∃ y, x.StepC u cs y ∧ y.StepC v ds z := by
  obtain ⟨a1, a2, a3⟩ := h
  refine ⟨⟨u.reverse ++ x.before, v ++ z.rest, cs ++ x.caps⟩, ⟨by rw [a1, List.append_assoc], rfl, rfl⟩, rfl, ?_, ?_⟩
  · rw [a2, List.reverse_append, List.append_assoc]
  · rw [a3, List.append_assoc]

theorem Re.means_pure (r : Re) (h : r.pure = true) : r.Means r.L := fun x y => Re.run_iff r h x y

theorem Re.Means.congr {r : Re} {P Q : List Char → Prop} (h : r.Means P) (hpq : ∀ w, P w ↔ Q w) : r.Means Q := by
  intro x y; rw [h x y]; simp only [hpq]

theorem Re.Means.seq {a b : Re} {P Q : List Char → Prop} (ha : a.Means P) (hb : b.Means Q) :
    (Re.seq a b).Means fun w => ∃ u v, P u ∧ Q v ∧ w = u ++ v := by
  intro x y
  simp only [Re.run, List.mem_flatMap, ha x, hb _ y]
  constructor
  · rintro ⟨z, ⟨u, hu, hxz⟩, v, hv, hzy⟩
    exact ⟨u ++ v, ⟨u, v, hu, hv, rfl⟩, hxz.trans hzy⟩
  · rintro ⟨w, ⟨u, v, hu, hv, rfl⟩, h⟩
    obtain ⟨z, h1, h2⟩ := h.next
    exact ⟨z, ⟨u, hu, h1⟩, v, hv, h2⟩

theorem Re.Means.alt {a b : Re} {P Q : List Char → Prop} (ha : a.Means P) (hb : b.Means Q) : (Re.alt a b).Means fun w => P w ∨ Q w := by
  intro x y
  simp only [Re.run, List.mem_append, ha x, hb x]
  constructor
  · rintro (⟨w, h1, h2⟩ | ⟨w, h1, h2⟩)
    · exact ⟨w, Or.inl h1, h2⟩
    · exact ⟨w, Or.inr h1, h2⟩
  · rintro ⟨w, h1 | h1, h2⟩
    · exact Or.inl ⟨w, h1, h2⟩
    · exact Or.inr ⟨w, h1, h2⟩

theorem Re.Means.star {a : Re} {P : List Char → Prop} (ha : a.Means P) :
    (Re.star a).Means fun w => ∃ ws : List (List Char), (∀ x ∈ ws, P x) ∧ w = ws.flatten := by
  intro x y
  simp only [Re.run]
  constructor
  · intro h
    obtain ⟨ws, h1, h2⟩ := iter_sound (fun x y h => (ha x y).1 h) _ x y h
    exact ⟨ws.flatten, ⟨ws, h1, rfl⟩, h2⟩
  · rintro ⟨w, ⟨ws, h1, rfl⟩, h2⟩
    exact iter_complete (fun x y w hw h => (ha x y).2 ⟨w, hw, h⟩) ws _ x y h1 h2 (Nat.le_refl _)

theorem Re.Means.plus {a : Re} {P : List Char → Prop} (ha : a.Means P) :
    (Re.plus a).Means fun w => ∃ ws : List (List Char), ws ≠ [] ∧ (∀ x ∈ ws, P x) ∧ w = ws.flatten := by
  refine (ha.seq ha.star).congr fun w => ?_
  constructor
  · rintro ⟨u, v, hu, ⟨ws, hws, rfl⟩, rfl⟩
    refine ⟨u :: ws, by simp, ?_, by simp⟩
    intro x hx
    rcases List.mem_cons.1 hx with rfl | hx
    · exact hu
    · exact hws x hx
  · rintro ⟨ws, hne, hws, rfl⟩
    cases ws with
    | nil => exact absurd rfl hne
    | cons u ws => exact ⟨u, ws.flatten, hws u (by simp), ⟨ws, fun x hx => hws x (by simp [hx]), rfl⟩, by simp⟩

/-- `^r$` -/
theorem Re.Means.anchored {r : Re} {P : List Char → Prop} (h : r.Means P) (s : List Char) :
    (Re.seq .bol (.seq r .eol)).test s = true ↔ Full P s := by
  rw [Re.test_iff]
  simp only [Re.run, List.mem_flatMap, h _ _, St.guard, St.start, List.isEmpty_nil, if_true, List.mem_singleton]
  constructor
  · rintro ⟨y, x, rfl, z, ⟨w, hw, hz⟩, hy⟩
    split at hy
    · rename_i he
      rw [atEol_iff] at he
      have := hz.1
      simp only at this
      rcases he with he | he
      · rw [he, List.append_nil] at this; exact Or.inl (this ▸ hw)
      · rw [he] at this; exact Or.inr ⟨w, hw, this⟩
    · cases hy
  · rintro (h | ⟨w, hw, rfl⟩)
    · refine ⟨⟨s.reverse, [], []⟩, _, rfl, ⟨s.reverse, [], []⟩, ⟨s, h, ?_⟩, ?_⟩
      · exact ⟨by simp, by simp, rfl⟩
      · simp [St.atEol]
    · refine ⟨⟨w.reverse, ['\n'], []⟩, _, rfl, ⟨w.reverse, ['\n'], []⟩, ⟨w, hw, ?_⟩, ?_⟩
      · exact ⟨by simp, by simp, rfl⟩
      · simp [St.atEol]

/-! ## Groups -/

theorem Re.Means.groups {r : Re} {P : List Char → Prop} (h : r.Means P) : r.MeansC fun w cs => P w ∧ cs = [] := by
  intro x y
  rw [h x y]
  constructor
  · rintro ⟨w, hw, h1, h2, h3⟩; exact ⟨w, [], ⟨hw, rfl⟩, h1, h2, h3⟩
  · rintro ⟨w, cs, ⟨hw, rfl⟩, h1, h2, h3⟩; exact ⟨w, hw, h1, h2, h3⟩

theorem Re.MeansC.congr {r : Re} {P Q : List Char → List (String × List Char) → Prop} (h : r.MeansC P) (hpq : ∀ w cs, P w cs ↔ Q w cs) : r.MeansC Q := by
  intro x y; rw [h x y]; simp only [hpq]

theorem Re.MeansC.seq {a b : Re} {P Q : List Char → List (String × List Char) → Prop} (ha : a.MeansC P) (hb : b.MeansC Q) :
    (Re.seq a b).MeansC fun w cs => ∃ u v c1 c2, P u c1 ∧ Q v c2 ∧ w = u ++ v ∧ cs = c2 ++ c1 := by
  intro x y
  simp only [Re.run, List.mem_flatMap, ha x, hb _ y]
  constructor
  · rintro ⟨z, ⟨u, c1, hu, hxz⟩, v, c2, hv, hzy⟩
    exact ⟨u ++ v, c2 ++ c1, ⟨u, v, c1, c2, hu, hv, rfl, rfl⟩, hxz.trans hzy⟩
  · rintro ⟨w, cs, ⟨u, v, c1, c2, hu, hv, rfl, rfl⟩, h⟩
    obtain ⟨z, h1, h2⟩ := h.next
    exact ⟨z, ⟨u, c1, hu, h1⟩, v, c2, hv, h2⟩

theorem Re.MeansC.alt {a b : Re} {P Q : List Char → List (String × List Char) → Prop} (ha : a.MeansC P) (hb : b.MeansC Q) :
    (Re.alt a b).MeansC fun w cs => P w cs ∨ Q w cs := by
  intro x y
  simp only [Re.run, List.mem_append, ha x, hb x]
  constructor
  · rintro (⟨w, c, h1, h2⟩ | ⟨w, c, h1, h2⟩)
    · exact ⟨w, c, Or.inl h1, h2⟩
    · exact ⟨w, c, Or.inr h1, h2⟩
  · rintro ⟨w, c, h1 | h1, h2⟩
    · exact Or.inl ⟨w, c, h1, h2⟩
    · exact Or.inr ⟨w, c, h1, h2⟩

theorem Re.means_eps : Re.eps.Means fun w => w = [] := by
  refine (Re.means_pure .eps rfl).congr fun w => Iff.rfl

theorem Re.MeansC.opt {a : Re} {P : List Char → List (String × List Char) → Prop} (ha : a.MeansC P) :
    (Re.opt a).MeansC fun w cs => P w cs ∨ (w = [] ∧ cs = []) := ha.alt Re.means_eps.groups

theorem St.StepC.between_eq {x y : St} {w : List Char} {cs} (h : x.StepC w cs y) : x.between y = w := by
  unfold St.between
  rw [h.2.1]
  simp

theorem Re.MeansC.grp {a : Re} {P : List Char → List (String × List Char) → Prop} (ha : a.MeansC P) (n : String) :
    (Re.grp n a).MeansC fun w cs => ∃ c, P w c ∧ cs = (n, w) :: c := by
  intro x y
  simp only [Re.run, List.mem_map, ha x]
  constructor
  · rintro ⟨z, ⟨w, c, hw, h⟩, rfl⟩
    refine ⟨w, _, ⟨c, hw, rfl⟩, h.1, h.2.1, ?_⟩
    simp only [h.between_eq, h.2.2, List.cons_append]
  · rintro ⟨w, cs, ⟨c, hw, rfl⟩, h1, h2, h3⟩
    refine ⟨⟨y.before, y.rest, c ++ x.caps⟩, ⟨w, c, hw, h1, h2, rfl⟩, ?_⟩
    have hb : x.between ⟨y.before, y.rest, c ++ x.caps⟩ = w :=
      St.StepC.between_eq (cs := c) ⟨h1, h2, rfl⟩
    simp only [hb]
    cases y
    simp only at h3
    rw [h3]; rfl

end Verif.Py
