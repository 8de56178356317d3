import Verif.Py.Text

/-!
# Python `re`: backtracking matching

Part of the modelled Python runtime.  `Re.run` lists, in the order in which Python's backtracking matcher tries them, all ways in which an
expression can match at a position; `re.match` succeeds iff the list is not empty, and the groups of the match are those of its first element.
Verbose patterns are written without their blanks, and `re.I` is folded into the character classes.
-/
namespace Verif.Py

/-- Regular expressions. -/
inductive Re
  /-- the empty pattern -/
  | eps
  /-- one character of a class -/
  | cls (p : Char → Bool)
  | seq (a b : Re)
  /-- `a|b` -/
  | alt (a b : Re)
  /-- `a*`, greedy -/
  | star (a : Re)
  /-- `^` -/
  | bol
  /-- `$` without `re.M`: at the end or before a final newline -/
  | eol
  /-- `(?!x)` for a character class -/
  | notAhead (p : Char → Bool)
  /-- `(?<!x)` for a character class -/
  | notBehind (p : Char → Bool)
  /-- `(?P<name>a)` -/
  | grp (name : String) (a : Re)

/-- A position in the text, and the named groups matched so far (latest first). -/
structure St where
  /-- characters already passed, latest first -/
  before : List Char
  rest : List Char
  caps : List (String × List Char)

/-- A character of a class at this position. -/
def St.eat (p : Char → Bool) (x : St) : List St :=
  match x.rest with
  | c :: r => if p c then [⟨c :: x.before, r, x.caps⟩] else []
  | [] => []

/-- Where `$` matches. -/
def St.atEol (x : St) : Bool :=
  match x.rest with
  | [] => true
  | c :: r => c == '\n' && r.isEmpty

/-- The next character is in the class. -/
def St.ahead (p : Char → Bool) (x : St) : Bool :=
  match x.rest with
  | c :: _ => p c
  | [] => false

/-- The previous character is in the class. -/
def St.behind (p : Char → Bool) (x : St) : Bool :=
  match x.before with
  | c :: _ => p c
  | [] => false

/-- The text between two positions. -/
def St.between (x y : St) : List Char := (y.before.take (y.before.length - x.before.length)).reverse

/-- `a*`: as many iterations as possible first; an iteration that consumes nothing ends the loop.  `n` bounds the iterations. -/
def iter (step : St → List St) : Nat → St → List St
  | 0, x => [x]
  | n + 1, x => ((step x).filter fun y => decide (y.rest.length < x.rest.length)).flatMap (iter step n) ++ [x]

/-- Keep the state if a condition holds. -/
def St.guard (b : Bool) (x : St) : List St := if b then [x] else []

/-- All matches at a position, in order of priority. -/
def Re.run : Re → St → List St
  | .eps, x => [x]
  | .cls p, x => x.eat p
  | .seq a b, x => (a.run x).flatMap b.run
  | .alt a b, x => a.run x ++ b.run x
  | .star a, x => iter a.run x.rest.length x
  | .bol, x => x.guard x.before.isEmpty
  | .eol, x => x.guard x.atEol
  | .notAhead p, x => x.guard (!x.ahead p)
  | .notBehind p, x => x.guard (!x.behind p)
  | .grp n a, x => (a.run x).map fun y => ⟨y.before, y.rest, (n, x.between y) :: y.caps⟩

/-- The start of a text. -/
def St.start (s : List Char) : St := ⟨[], s, []⟩

/-- `bool(re.match(r, s))` -/
def Re.test (r : Re) (s : List Char) : Bool := !(r.run (St.start s)).isEmpty

namespace Re

/-- A given character. -/
def chr (c : Char) : Re := .cls (· == c)
/-- `a?` -/
def opt (a : Re) : Re := .alt a .eps
/-- `a{n}` -/
def rep : Nat → Re → Re
  | 0, _ => .eps
  | n + 1, a => .seq a (rep n a)
/-- `a{,n}`, greedy -/
def upTo : Nat → Re → Re
  | 0, _ => .eps
  | n + 1, a => opt (.seq a (upTo n a))
/-- `a{m,n}` -/
def range (m n : Nat) (a : Re) : Re := .seq (rep m a) (upTo (n - m) a)
/-- `a+` -/
def plus (a : Re) : Re := .seq a (.star a)

/-- Expressions without anchors, assertions and groups. -/
def pure : Re → Bool
  | .eps => true
  | .cls _ => true
  | .seq a b => a.pure && b.pure
  | .alt a b => a.pure && b.pure
  | .star a => a.pure
  | _ => false

/-- The language of an expression (for expressions without anchors, assertions and groups): the textbook definition. -/
def L : Re → List Char → Prop
  | .eps, w => w = []
  | .cls p, w => ∃ c, p c = true ∧ w = [c]
  | .seq a b, w => ∃ u v, L a u ∧ L b v ∧ w = u ++ v
  | .alt a b, w => L a w ∨ L b w
  | .star a, w => ∃ ws : List (List Char), (∀ x ∈ ws, L a x) ∧ w = ws.flatten
  | _, _ => False

end Re

/-- `y` is reached from `x` by passing the text `w`. -/
def St.Step (x : St) (w : List Char) (y : St) : Prop := x.rest = w ++ y.rest ∧ y.before = w.reverse ++ x.before ∧ y.caps = x.caps

theorem St.Step.refl (x : St) : x.Step [] x := ⟨rfl, rfl, rfl⟩

theorem St.Step.trans {x y z : St} {u v : List Char} (h1 : x.Step u y) (h2 : y.Step v z) : x.Step (u ++ v) z := by
  obtain ⟨a1, a2, a3⟩ := h1
  obtain ⟨b1, b2, b3⟩ := h2
  exact ⟨by rw [a1, b1, List.append_assoc], by rw [b2, a2, List.reverse_append, List.append_assoc], by rw [b3, a3]⟩

/-- Passing a text is deterministic. -/
theorem St.Step.next {x z : St} {u v : List Char} (h : x.Step (u ++ v) z) : ∃ y, x.Step u y ∧ y.Step v z := by
  obtain ⟨a1, a2, a3⟩ := h
  refine ⟨⟨u.reverse ++ x.before, v ++ z.rest, x.caps⟩, ⟨by rw [a1, List.append_assoc], rfl, rfl⟩, rfl, ?_, a3⟩
  rw [a2, List.reverse_append, List.append_assoc]

theorem St.Step.unique {x y z : St} {u : List Char} (h1 : x.Step u y) (h2 : x.Step u z) : y = z := by
  obtain ⟨a1, a2, a3⟩ := h1
  obtain ⟨b1, b2, b3⟩ := h2
  cases y; cases z
  simp only at *
  rw [a1] at b1
  simp only [St.mk.injEq]
  exact ⟨by rw [a2, b2], List.append_cancel_left b1, by rw [a3, b3]⟩

theorem iter_sound {step : St → List St} {P : List Char → Prop} (hs : ∀ x y, y ∈ step x → ∃ w, P w ∧ x.Step w y) :
    ∀ n x y, y ∈ iter step n x → ∃ ws : List (List Char), (∀ w ∈ ws, P w) ∧ x.Step ws.flatten y := by
  intro n
  induction n with
  | zero =>
    intro x y h
    simp only [iter, List.mem_singleton] at h
    subst h
    exact ⟨[], by simp, St.Step.refl _⟩
  | succ n ih =>
    intro x y h
    simp only [iter, List.mem_append, List.mem_flatMap, List.mem_filter, List.mem_singleton] at h
    rcases h with ⟨z, ⟨hz, -⟩, hy⟩ | rfl
    · obtain ⟨w, hw, hxz⟩ := hs x z hz
      obtain ⟨ws, hws, hzy⟩ := ih z y hy
      refine ⟨w :: ws, ?_, by simpa using hxz.trans hzy⟩
      intro u hu
      rcases List.mem_cons.1 hu with rfl | hu
      · exact hw
      · exact hws u hu
    · exact ⟨[], by simp, St.Step.refl _⟩

theorem iter_complete {step : St → List St} {P : List Char → Prop} (hs : ∀ x y w, P w → x.Step w y → y ∈ step x) :
    ∀ (ws : List (List Char)) n x y, (∀ w ∈ ws, P w) → x.Step ws.flatten y → x.rest.length ≤ n → y ∈ iter step n x := by
  intro ws
  induction ws with
  | nil =>
    intro n x y _ h _
    have : y = x := (h.unique (St.Step.refl x))
    subst this
    cases n <;> simp [iter]
  | cons w ws ih =>
    intro n x y hP h hn
    rw [List.flatten_cons] at h
    obtain ⟨z, hz, hzy⟩ := h.next
    by_cases hw : w = []
    · subst hw
      have : z = x := hz.unique (St.Step.refl x)
      subst this
      exact ih n z y (fun w hw => hP w (by simp [hw])) hzy hn
    · have hlen : z.rest.length < x.rest.length := by
        rw [hz.1, List.length_append]
        have := List.length_pos_iff.2 hw
        omega
      obtain ⟨n, rfl⟩ : ∃ m, n = m + 1 := ⟨n - 1, by omega⟩
      simp only [iter, List.mem_append, List.mem_flatMap, List.mem_filter]
      left
      refine ⟨z, ⟨hs x z w (hP w (by simp)) hz, by simpa using hlen⟩, ?_⟩
      exact ih n z y (fun w hw => hP w (by simp [hw])) hzy (by omega)

/-- **The matcher is right**: on expressions without anchors, assertions and groups, the matches at a position are exactly the words of the
language that stand there. -/
theorem Re.run_iff : ∀ (r : Re), r.pure = true → ∀ x y, y ∈ r.run x ↔ ∃ w, r.L w ∧ x.Step w y := by
  intro r
  induction r with
  | eps =>
    intro _ x y
    simp only [Re.run, List.mem_singleton, Re.L]
    constructor
    · rintro rfl; exact ⟨[], rfl, St.Step.refl _⟩
    · rintro ⟨w, rfl, h⟩; exact h.unique (St.Step.refl x)
  | cls p =>
    intro _ x y
    simp only [Re.run, St.eat, Re.L]
    constructor
    · intro h
      split at h
      · rename_i c r hr
        split at h
        · rename_i hp
          simp only [List.mem_singleton] at h
          subst h
          exact ⟨[c], ⟨c, hp, rfl⟩, by rw [hr]; rfl, rfl, rfl⟩
        · cases h
      · cases h
    · rintro ⟨w, ⟨c, hp, rfl⟩, h1, h2, h3⟩
      simp only [List.cons_append, List.nil_append] at h1
      rw [h1]
      simp only [hp, if_true, List.mem_singleton]
      cases y
      simp only at *
      simp only [h2, h3, List.reverse_cons, List.reverse_nil, List.nil_append, List.cons_append]
  | seq a b iha ihb =>
    intro hp x y
    simp only [Re.pure, Bool.and_eq_true] at hp
    simp only [Re.run, List.mem_flatMap, Re.L, iha hp.1, ihb hp.2]
    constructor
    · rintro ⟨z, ⟨u, hu, hxz⟩, v, hv, hzy⟩
      exact ⟨u ++ v, ⟨u, v, hu, hv, rfl⟩, hxz.trans hzy⟩
    · rintro ⟨w, ⟨u, v, hu, hv, rfl⟩, h⟩
      obtain ⟨z, h1, h2⟩ := h.next
      exact ⟨z, ⟨u, hu, h1⟩, v, hv, h2⟩
  | alt a b iha ihb =>
    intro hp x y
    simp only [Re.pure, Bool.and_eq_true] at hp
    simp only [Re.run, List.mem_append, Re.L, iha hp.1, ihb hp.2]
    constructor
    · rintro (⟨w, h1, h2⟩ | ⟨w, h1, h2⟩)
      · exact ⟨w, Or.inl h1, h2⟩
      · exact ⟨w, Or.inr h1, h2⟩
    · rintro ⟨w, h1 | h1, h2⟩
      · exact Or.inl ⟨w, h1, h2⟩
      · exact Or.inr ⟨w, h1, h2⟩
  | star a ih =>
    intro hp x y
    simp only [Re.pure] at hp
    simp only [Re.run, Re.L]
    constructor
    · intro h
      obtain ⟨ws, h1, h2⟩ := iter_sound (fun x y h => (ih hp x y).1 h) _ x y h
      exact ⟨ws.flatten, ⟨ws, h1, rfl⟩, h2⟩
    · rintro ⟨w, ⟨ws, h1, rfl⟩, h2⟩
      exact iter_complete (fun x y w hw h => (ih hp x y).2 ⟨w, hw, h⟩) ws _ x y h1 h2 (Nat.le_refl _)
  | bol => intro hp; cases hp
  | eol => intro hp; cases hp
  | notAhead p => intro hp; cases hp
  | notBehind p => intro hp; cases hp
  | grp n a ih => intro hp; cases hp

theorem Re.test_iff (r : Re) (s : List Char) : r.test s = true ↔ ∃ y, y ∈ r.run (St.start s) := by
  unfold Re.test
  cases h : r.run (St.start s) with
  | nil => simp
  | cons y ys => simp

/-- The text is a word of the language, or one followed by a newline. -/
def Full (P : List Char → Prop) (s : List Char) : Prop := P s ∨ ∃ w, P w ∧ s = w ++ ['\n']

theorem atEol_iff (x : St) : x.atEol = true ↔ x.rest = [] ∨ x.rest = ['\n'] := by
  unfold St.atEol
  split
  · rename_i h; simp [h]
  · rename_i c r h
    rw [h]
    cases r <;> simp

/-- `re.match('^r$', s)`: a word of the language, with an optional final newline. -/
theorem Re.anchored_iff (r : Re) (hp : r.pure = true) (s : List Char) :
    (Re.seq .bol (.seq r .eol)).test s = true ↔ Full r.L s := by
  rw [Re.test_iff]
  simp only [Re.run, List.mem_flatMap, Re.run_iff r hp, St.guard, St.start, List.isEmpty_nil, if_true, List.mem_singleton]
  constructor
  · rintro ⟨y, x, rfl, z, ⟨w, hw, hz⟩, hy⟩
    split at hy
    · rename_i he
      rw [atEol_iff] at he
      have := hz.1
      simp only at this
      rcases he with he | he
      · rw [he, List.append_nil] at this; exact Or.inl (this ▸ hw)
      · rw [he] at this; exact Or.inr ⟨w, hw, this⟩
    · cases hy
  · rintro (h | ⟨w, hw, rfl⟩)
    · refine ⟨⟨s.reverse, [], []⟩, _, rfl, ⟨s.reverse, [], []⟩, ⟨s, h, ?_⟩, ?_⟩
      · exact ⟨by simp, by simp, rfl⟩
      · simp [St.atEol]
    · refine ⟨⟨w.reverse, ['\n'], []⟩, _, rfl, ⟨w.reverse, ['\n'], []⟩, ⟨w, hw, ?_⟩, ?_⟩
      · exact ⟨by simp, by simp, rfl⟩
      · simp [St.atEol]

/-! ## Languages of the derived forms -/

theorem Re.L_chr (c : Char) (w : List Char) : (Re.chr c).L w ↔ w = [c] := by
  simp only [Re.chr, Re.L]
  constructor
  · rintro ⟨d, hd, rfl⟩; simp at hd; rw [hd]
  · rintro rfl; exact ⟨c, by simp, rfl⟩

theorem Re.L_opt (a : Re) (w : List Char) : (Re.opt a).L w ↔ a.L w ∨ w = [] := by simp only [Re.opt, Re.L]

theorem Re.L_rep (a : Re) : ∀ n w, (Re.rep n a).L w ↔ ∃ ws : List (List Char), ws.length = n ∧ (∀ x ∈ ws, a.L x) ∧ w = ws.flatten := by
  intro n
  induction n with
  | zero =>
    intro w
    simp only [Re.rep, Re.L]
    constructor
    · rintro rfl; exact ⟨[], rfl, by simp, rfl⟩
    · rintro ⟨ws, h, -, rfl⟩; rw [List.length_eq_zero_iff.1 h]; rfl
  | succ n ih =>
    intro w
    simp only [Re.rep, Re.L, ih]
    constructor
    · rintro ⟨u, v, hu, ⟨ws, h1, h2, rfl⟩, rfl⟩
      refine ⟨u :: ws, by simp [h1], ?_, by simp⟩
      intro x hx
      rcases List.mem_cons.1 hx with rfl | hx
      · exact hu
      · exact h2 x hx
    · rintro ⟨ws, h1, h2, rfl⟩
      cases ws with
      | nil => cases h1
      | cons u ws =>
        exact ⟨u, ws.flatten, h2 u (by simp), ⟨ws, by simpa using h1, fun x hx => h2 x (by simp [hx]), rfl⟩, by simp⟩

theorem Re.L_upTo (a : Re) : ∀ n w, (Re.upTo n a).L w ↔ ∃ ws : List (List Char), ws.length ≤ n ∧ (∀ x ∈ ws, a.L x) ∧ w = ws.flatten := by
  intro n
  induction n with
  | zero =>
    intro w
    simp only [Re.upTo, Re.L]
    constructor
    · rintro rfl; exact ⟨[], by simp, by simp, rfl⟩
    · rintro ⟨ws, h, -, rfl⟩; rw [List.length_eq_zero_iff.1 (Nat.le_zero.1 h)]; rfl
  | succ n ih =>
    intro w
    simp only [Re.upTo, Re.L_opt, Re.L, ih]
    constructor
    · rintro (⟨u, v, hu, ⟨ws, h1, h2, rfl⟩, rfl⟩ | rfl)
      · refine ⟨u :: ws, by simp [h1], ?_, by simp⟩
        intro x hx
        rcases List.mem_cons.1 hx with rfl | hx
        · exact hu
        · exact h2 x hx
      · exact ⟨[], by simp, by simp, rfl⟩
    · rintro ⟨ws, h1, h2, rfl⟩
      cases ws with
      | nil => exact Or.inr rfl
      | cons u ws =>
        left
        exact ⟨u, ws.flatten, h2 u (by simp), ⟨ws, by simpa using h1, fun x hx => h2 x (by simp [hx]), rfl⟩, by simp⟩

theorem Re.L_range (a : Re) (m n : Nat) (h : m ≤ n) (w : List Char) :
    (Re.range m n a).L w ↔ ∃ ws : List (List Char), m ≤ ws.length ∧ ws.length ≤ n ∧ (∀ x ∈ ws, a.L x) ∧ w = ws.flatten := by
  simp only [Re.range, Re.L, Re.L_rep, Re.L_upTo]
  constructor
  · rintro ⟨u, v, ⟨us, h1, h2, rfl⟩, ⟨vs, h3, h4, rfl⟩, rfl⟩
    refine ⟨us ++ vs, by simp; omega, by simp; omega, ?_, by simp⟩
    intro x hx
    rcases List.mem_append.1 hx with hx | hx
    · exact h2 x hx
    · exact h4 x hx
  · rintro ⟨ws, h1, h2, h3, rfl⟩
    refine ⟨(ws.take m).flatten, (ws.drop m).flatten, ⟨ws.take m, by simp [h1], fun x hx => h3 x (List.mem_of_mem_take hx), rfl⟩,
      ⟨ws.drop m, by simp; omega, fun x hx => h3 x (List.mem_of_mem_drop hx), rfl⟩, ?_⟩
    rw [← List.flatten_append, List.take_append_drop]

/-- Words of a class. -/
theorem flatten_cls {p : Char → Bool} : ∀ (ws : List (List Char)), (∀ x ∈ ws, (Re.cls p).L x) →
    ws.flatten.length = ws.length ∧ ∀ c ∈ ws.flatten, p c = true := by
  intro ws
  induction ws with
  | nil => intro _; simp
  | cons w ws ih =>
    intro h
    obtain ⟨c, hc, rfl⟩ := h w (by simp)
    obtain ⟨h1, h2⟩ := ih (fun x hx => h x (by simp [hx]))
    refine ⟨by simp [h1], ?_⟩
    intro d hd
    simp only [List.flatten_cons, List.cons_append, List.nil_append, List.mem_cons] at hd
    rcases hd with rfl | hd
    · exact hc
    · exact h2 d hd

theorem cls_flatten {p : Char → Bool} (w : List Char) (h : ∀ c ∈ w, p c = true) :
    (∀ x ∈ w.map (fun c => [c]), (Re.cls p).L x) ∧ (w.map fun c => [c]).flatten = w ∧ (w.map fun c => [c]).length = w.length := by
  refine ⟨?_, ?_, by simp⟩
  · intro x hx
    obtain ⟨c, hc, rfl⟩ := List.mem_map.1 hx
    exact ⟨c, h c hc, rfl⟩
  · induction w with
    | nil => rfl
    | cons c w ih => simp [ih (fun c hc => h c (by simp [hc]))]

/-- `[p]{n}` -/
theorem Re.L_rep_cls (p : Char → Bool) (n : Nat) (w : List Char) : (Re.rep n (.cls p)).L w ↔ w.length = n ∧ ∀ c ∈ w, p c = true := by
  rw [Re.L_rep]
  constructor
  · rintro ⟨ws, h1, h2, rfl⟩
    obtain ⟨a, b⟩ := flatten_cls ws h2
    exact ⟨by rw [a, h1], b⟩
  · rintro ⟨h1, h2⟩
    obtain ⟨a, b, c⟩ := cls_flatten w h2
    exact ⟨_, by rw [c, h1], a, b.symm⟩

/-- `[p]{m,n}` -/
theorem Re.L_range_cls (p : Char → Bool) (m n : Nat) (h : m ≤ n) (w : List Char) :
    (Re.range m n (.cls p)).L w ↔ m ≤ w.length ∧ w.length ≤ n ∧ ∀ c ∈ w, p c = true := by
  rw [Re.L_range _ _ _ h]
  constructor
  · rintro ⟨ws, h1, h2, h3, rfl⟩
    obtain ⟨a, b⟩ := flatten_cls ws h3
    exact ⟨by omega, by omega, b⟩
  · rintro ⟨h1, h2, h3⟩
    obtain ⟨a, b, c⟩ := cls_flatten w h3
    exact ⟨_, by omega, by omega, a, b.symm⟩

/-- `[p]*` -/
theorem Re.L_star_cls (p : Char → Bool) (w : List Char) : (Re.star (.cls p)).L w ↔ ∀ c ∈ w, p c = true := by
  simp only [Re.L]
  constructor
  · rintro ⟨ws, h3, rfl⟩
    exact (flatten_cls ws h3).2
  · intro h
    obtain ⟨a, b, c⟩ := cls_flatten w h
    exact ⟨_, a, b.symm⟩

/-- `[p]+` -/
theorem Re.L_plus_cls (p : Char → Bool) (w : List Char) : (Re.plus (.cls p)).L w ↔ w ≠ [] ∧ ∀ c ∈ w, p c = true := by
  rw [Re.plus, Re.L]
  simp only [Re.L_star_cls]
  constructor
  · rintro ⟨u, v, ⟨c, hc, rfl⟩, hv, rfl⟩
    refine ⟨by simp, ?_⟩
    intro d hd
    simp only [List.cons_append, List.nil_append, List.mem_cons] at hd
    rcases hd with rfl | hd
    · exact hc
    · exact hv d hd
  · rintro ⟨h1, h2⟩
    cases w with
    | nil => exact absurd rfl h1
    | cons c w => exact ⟨[c], w, ⟨c, h2 c (by simp), rfl⟩, fun d hd => h2 d (by simp [hd]), rfl⟩

@[simp] theorem Re.pure_rep (a : Re) (h : a.pure = true) : ∀ n, (Re.rep n a).pure = true := by
  intro n
  induction n with
  | zero => rfl
  | succ n ih => simp [Re.rep, Re.pure, h, ih]

@[simp] theorem Re.pure_upTo (a : Re) (h : a.pure = true) : ∀ n, (Re.upTo n a).pure = true := by
  intro n
  induction n with
  | zero => rfl
  | succ n ih => simp [Re.upTo, Re.opt, Re.pure, h, ih]

end Verif.Py
