import Verif.Props.Hooks

/-!
# C102: when user code is called — the watched engine
-/
namespace Verif

/-! ## Specification -/

/-- Which step comes first among the steps that can follow the same place: the default is read before the value is converted and the replacement after that; conversion before validators;
setters before fields before `validate_` methods; the input of a setter before the setter; items, fields and validators by their number. -/
def Step.rank : Step → Nat
  | .dflt => 0
  | .value => 1
  | .repl => 2
  | .conv => 3
  | .checks => 4
  | .setters => 5
  | .fields => 6
  | .methods => 7
  | .input => 8
  | .assign => 9
  | .at i => i

/-- The place `p` comes before `q`: where they part, the step of `p` comes first. -/
def Before (p q : Place) : Prop := ∃ r a b p' q', p = r ++ a :: p' ∧ q = r ++ b :: q' ∧ a.rank < b.rank

/-- The result has errors: it is an exception, or a value that carries them. -/
def Bad (f : α → Prop) : R α → Prop
  | .ok a => f a
  | .error _ => True

/-- `DataError({})`: says that there are errors, but has none. -/
def Exc.hollow : Exc → Prop
  | .data [] _ => True
  | _ => False

/-! ## The calls of a computation -/

/-- What is claimed about the calls `evs` made by a computation with result `r` that works at the place `p`, in the steps `P`. -/
structure Fine (ns z start : Prop) (p : Place) (P : Step → Prop) (f : α → Prop) (r : R α) (evs : List Call) : Prop where
  within : ∀ e ∈ evs, ∃ st t, e.place = p ++ st :: t ∧ P st
  order : evs.Pairwise (fun a b => Before a.place b.place)
  crash : ∀ e ∈ evs, ∀ x, e.raised = some x → x.caught = false → (ns ∨ x ≠ .other "AttributeError") → r = .error x ∧ ∃ l, evs = l ++ [e]
  errs : ns → (start ∨ ∃ e ∈ evs, e.raised ≠ none) → Bad f r
  quiet : ns → ∀ e ∈ evs, ∀ e' ∈ evs, ∀ q t j, e.place = q ++ .conv :: t → e.raised ≠ none → e'.place ≠ q ++ [.checks, .at j]
  sane : ns → z → ∀ x, r = .error x → ¬ x.hollow

/-- `m'` does what `m` does, and the calls it appends are fine. -/
def Watch (ns z start : Prop) (p : Place) (P : Step → Prop) (f : α → Prop) (m : St σ α) (m' : St (σ × List Call) α) : Prop :=
  ∀ s, ∃ evs, (∀ l, m' (s, l) = ((m s).1, ((m s).2, l ++ evs))) ∧ Fine ns z start p P f (m s).1 evs

theorem Before.irrefl (p : Place) : ¬ Before p p := by
  rintro ⟨r, a, b, p', q', h1, h2, h3⟩
  have h := List.append_cancel_left (h1.symm.trans h2)
  cases h
  exact Nat.lt_irrefl _ h3

section rules
variable {ns z start : Prop} {p : Place} {P Q : Step → Prop}

theorem Watch.pure {f : α → Prop} {r : R α} (h : ns → start → Bad f r) (hz : ns → z → ∀ x, r = .error x → ¬ x.hollow) :
    Watch (σ := σ) ns z start p P f (St.pure r) (St.pure r) := by
  intro s
  refine ⟨[], fun l => by simp [St.pure], ⟨nofun, .nil, nofun, ?_, nofun, hz⟩⟩
  rintro hn (hs | ⟨e, he, _⟩)
  · exact h hn hs
  · cases he

theorem Watch.ok {f : α → Prop} {a : α} (h : ns → start → f a) : Watch (σ := σ) ns z start p P f (St.pure (.ok a)) (St.pure (.ok a)) := Watch.pure h nofun

theorem Watch.leaf {st : Step} {w : Code} {f : α → Prop} {m : St σ α} (hs : ns → ∀ s x, (m s).1 = .error x → ¬ x.hollow) :
    Watch ns z False p (· = st) f m (m.watched (p ++ [st]) w) := by
  intro s
  refine ⟨[⟨p ++ [st], w, (m s).1.exc⟩], fun _ => rfl, ⟨?_, ?_, ?_, ?_, ?_, ?_⟩⟩
  · intro e he
    rw [List.mem_singleton] at he
    subst he
    exact ⟨st, [], rfl, rfl⟩
  · exact List.pairwise_singleton _ _
  · intro e he x hx _ _
    rw [List.mem_singleton] at he
    subst he
    refine ⟨?_, [], rfl⟩
    dsimp only at hx
    cases hr : (m s).1 with
    | ok a => rw [hr] at hx; cases hx
    | error y => rw [hr] at hx; cases hx; rfl
  · rintro _ (h | ⟨e, he, hx⟩)
    · exact h.elim
    · rw [List.mem_singleton] at he
      subst he
      dsimp only at hx
      cases hr : (m s).1 with
      | ok a => rw [hr] at hx; exact (hx rfl).elim
      | error y => exact trivial
  · intro _ e he e' he' q t j h1 _ h2
    rw [List.mem_singleton] at he he'
    subst he he'
    rw [h1] at h2
    have h := List.append_cancel_left h2
    cases h
  · intro hn _ x hx
    exact hs hn s x hx

theorem Watch.embed {st : Step} {f : α → Prop} {m : St σ α} {m' : St (σ × List Call) α} (h : Watch ns z start (p ++ [st]) P f m m') : Watch ns z start p (· = st) f m m' := by
  intro s
  obtain ⟨evs, h1, h2⟩ := h s
  refine ⟨evs, h1, ⟨?_, h2.order, h2.crash, h2.errs, h2.quiet, h2.sane⟩⟩
  intro e he
  obtain ⟨st', t, h3, _⟩ := h2.within e he
  exact ⟨st, st' :: t, by rw [h3]; simp, rfl⟩

theorem Watch.weaken {z' start' : Prop} {f f' : α → Prop} {m : St σ α} {m' : St (σ × List Call) α} (h : Watch ns z start p P f m m') (hP : ∀ st, P st → Q st)
    (hf : ns → (start' → start) ∧ (∀ a, f a → f' a)) (hz : z' → z) : Watch ns z' start' p Q f' m m' := by
  intro s
  obtain ⟨evs, h1, h2⟩ := h s
  refine ⟨evs, h1, ⟨?_, h2.order, h2.crash, ?_, h2.quiet, fun hn hz' => h2.sane hn (hz hz')⟩⟩
  · intro e he
    obtain ⟨st', t, h3, h4⟩ := h2.within e he
    exact ⟨st', t, h3, hP _ h4⟩
  · intro hn hs
    have hb := h2.errs hn (hs.imp (hf hn).1 id)
    cases hr : (m s).1 with
    | ok a => rw [hr] at hb; exact (hf hn).2 a hb
    | error y => exact trivial

/-- The errors do not matter. -/
theorem Watch.any {f : α → Prop} {m : St σ α} {m' : St (σ × List Call) α} (h : Watch ns z start p P f m m') : Watch ns z True p P (fun _ => True) m m' := by
  intro s
  obtain ⟨evs, h1, h2⟩ := h s
  refine ⟨evs, h1, ⟨h2.within, h2.order, h2.crash, ?_, h2.quiet, h2.sane⟩⟩
  intro hn hs
  cases (m s).1 <;> exact trivial

/-- Without `ns` nothing is claimed about errors. -/
theorem Watch.vacuous {z' start' : Prop} {f f' : α → Prop} {m : St σ α} {m' : St (σ × List Call) α} (h : Watch ns z start p P f m m') (hn : ¬ ns) : Watch ns z' start' p P f' m m' := by
  intro s
  obtain ⟨evs, h1, h2⟩ := h s
  exact ⟨evs, h1, ⟨h2.within, h2.order, h2.crash, fun h => (hn h).elim, fun h => (hn h).elim, fun h => (hn h).elim⟩⟩

/-- Errors so far are kept by a computation that carries none. -/
theorem Watch.carry {S : Prop} {f : α → Prop} {m : St σ α} {m' : St (σ × List Call) α} (h : Watch ns z False p P f m m') (hf : ns → ∀ a, ¬ f a) : Watch ns z S p P (fun _ => S) m m' := by
  intro s
  obtain ⟨evs, h1, h2⟩ := h s
  refine ⟨evs, h1, ⟨h2.within, h2.order, h2.crash, ?_, h2.quiet, h2.sane⟩⟩
  intro hn hs
  cases hr : (m s).1 with
  | error x => trivial
  | ok a =>
    rcases hs with hs | hs
    · exact hs
    · have h3 := h2.errs hn (.inr hs)
      rw [hr] at h3
      exact (hf hn a h3).elim

theorem before_of_ranks {a b : Call} (h1 : ∃ st t, a.place = p ++ st :: t ∧ P st) (h2 : ∃ st t, b.place = p ++ st :: t ∧ Q st) (hPQ : ∀ a b, P a → Q b → a.rank < b.rank) : Before a.place b.place := by
  obtain ⟨s1, t1, e1, p1⟩ := h1
  obtain ⟨s2, t2, e2, p2⟩ := h2
  exact ⟨p, s1, s2, t1, t2, e1, e2, hPQ _ _ p1 p2⟩

/-- Two places that part at `p` and at `q` part at the same place. -/
theorem part_eq {p q : Place} {s1 s2 a b : Step} {t1 t2 u v : List Step} (h1 : q ++ a :: u = p ++ s1 :: t1) (h2 : q ++ b :: v = p ++ s2 :: t2) (hs : s1 ≠ s2) (hab : a ≠ b) : s1 = a ∧ s2 = b := by
  induction q generalizing p with
  | nil =>
    cases p with
    | nil => cases h1; cases h2; exact ⟨rfl, rfl⟩
    | cons x p => cases h1; cases h2; exact (hab rfl).elim
  | cons y q ih =>
    cases p with
    | nil => cases h1; cases h2; exact (hs rfl).elim
    | cons x p =>
      simp only [List.cons_append, List.cons.injEq] at h1 h2
      exact ih h1.2 h2.2

theorem rank_ne {a b : Step} (h : a.rank < b.rank) : a ≠ b := fun e => by rw [e] at h; exact Nat.lt_irrefl _ h

/-- Calls of two computations one after the other. -/
theorem Fine.seq {z1 z2 start1 start2 : Prop} {f : α → Prop} {g : β → Prop} {r : R α} {r' : R β} {evs evs' : List Call} (h1 : Fine ns z1 start1 p P f r evs) (h2 : Fine ns z2 start2 p Q g r' evs')
    (hPQ : ∀ a b, P a → Q b → a.rank < b.rank) (hq : ns → P .conv → Q .checks → evs' = [] ∨ ∀ e ∈ evs, e.raised = none)
    (hc : ∀ x, r = .error x → x.caught = false → (ns ∨ x ≠ .other "AttributeError") → evs' = [] ∧ r' = .error x)
    (hs : ns → (start ∨ ∃ e ∈ evs, e.raised ≠ none) → (start2 ∨ Bad g r')) (hz : z → z2) :
    Fine ns z start p (fun st => P st ∨ Q st) g r' (evs ++ evs') := by
  refine ⟨?_, ?_, ?_, ?_, ?_, fun hn h => h2.sane hn (hz h)⟩
  · intro e he
    rcases List.mem_append.1 he with he | he
    · obtain ⟨st, t, h3, h4⟩ := h1.within e he
      exact ⟨st, t, h3, .inl h4⟩
    · obtain ⟨st, t, h3, h4⟩ := h2.within e he
      exact ⟨st, t, h3, .inr h4⟩
  · refine List.pairwise_append.2 ⟨h1.order, h2.order, ?_⟩
    intro a ha b hb
    exact before_of_ranks (h1.within a ha) (h2.within b hb) hPQ
  · intro e he x hx hcx ha
    rcases List.mem_append.1 he with he | he
    · obtain ⟨h3, l, h4⟩ := h1.crash e he x hx hcx ha
      obtain ⟨h5, h6⟩ := hc x h3 hcx ha
      exact ⟨h6, l, by rw [h5, h4]; simp⟩
    · obtain ⟨h3, l, h4⟩ := h2.crash e he x hx hcx ha
      exact ⟨h3, evs ++ l, by rw [h4]; simp⟩
  · intro hn hs'
    rcases hs' with h | ⟨e, he, hx⟩
    · rcases hs hn (.inl h) with h | h
      · exact h2.errs hn (.inl h)
      · exact h
    · rcases List.mem_append.1 he with he | he
      · rcases hs hn (.inr ⟨e, he, hx⟩) with h | h
        · exact h2.errs hn (.inl h)
        · exact h
      · exact h2.errs hn (.inr ⟨e, he, hx⟩)
  · intro hn e he e' he' q t j hp hx hp'
    rcases List.mem_append.1 he with he | he <;> rcases List.mem_append.1 he' with he' | he'
    · exact h1.quiet hn e he e' he' q t j hp hx hp'
    · obtain ⟨s1, t1, e1, p1⟩ := h1.within e he
      obtain ⟨s2, t2, e2, p2⟩ := h2.within e' he'
      obtain ⟨h3, h4⟩ := part_eq (hp.symm.trans e1) (hp'.symm.trans e2) (rank_ne (hPQ _ _ p1 p2)) (by decide)
      subst h3 h4
      rcases hq hn p1 p2 with h | h
      · rw [h] at he'; cases he'
      · exact hx (h e he)
    · obtain ⟨s1, t1, e1, p1⟩ := h1.within e' he'
      obtain ⟨s2, t2, e2, p2⟩ := h2.within e he
      obtain ⟨h3, h4⟩ := part_eq (hp.symm.trans e2) (hp'.symm.trans e1) (rank_ne (hPQ _ _ p1 p2)).symm (by decide)
      subst h3 h4
      exact absurd (hPQ _ _ p1 p2) (by decide)
    · exact h2.quiet hn e he e' he' q t j hp hx hp'

theorem Watch.bind {f : α → Prop} {g : β → Prop} {m : St σ α} {m' : St (σ × List Call) α} {k : α → St σ β} {k' : α → St (σ × List Call) β} (hm : Watch ns z start p P f m m')
    (hk : ∀ a, Watch ns z (f a) p Q g (k a) (k' a)) (hPQ : ∀ a b, P a → Q b → a.rank < b.rank) (hq : P .conv → Q .checks → ∀ a, ¬ f a) :
    Watch ns z start p (fun st => P st ∨ Q st) g (St.bind m k) (St.bind m' k') := by
  intro s
  obtain ⟨evs, h1, h2⟩ := hm s
  unfold St.bind
  simp only [h1]
  rcases hx : m s with ⟨x, s'⟩
  rw [hx] at h2
  cases x with
  | error x =>
    refine ⟨evs, fun _ => rfl, ⟨?_, h2.order, ?_, fun _ _ => trivial, h2.quiet, ?_⟩⟩
    · intro e he
      obtain ⟨st, t, h3, h4⟩ := h2.within e he
      exact ⟨st, t, h3, .inl h4⟩
    · intro e he y hy hc ha
      obtain ⟨h3, h4⟩ := h2.crash e he y hy hc ha
      cases h3
      exact ⟨rfl, h4⟩
    · intro hn hz y hy
      cases hy
      exact h2.sane hn hz _ rfl
  | ok a =>
    dsimp only
    obtain ⟨evs', h3, h4⟩ := hk a s'
    refine ⟨evs ++ evs', fun l => by rw [h3, List.append_assoc], h2.seq h4 hPQ ?_ nofun ?_ id⟩
    · intro hn p1 p2
      refine .inr fun e he => ?_
      cases hr : e.raised with
      | none => rfl
      | some x => exact (hq p1 p2 a (h2.errs hn (.inr ⟨e, he, by rw [hr]; nofun⟩))).elim
    · intro hn hs
      exact .inl (h2.errs hn hs)

theorem Watch.handle {zm sm : Prop} {f : α → Prop} {g : β → Prop} {m : St σ α} {m' : St (σ × List Call) α} {k : α → St σ β} {k' : α → St (σ × List Call) β} {h : Exc → St σ β}
    {h' : Exc → St (σ × List Call) β} (hm : Watch ns zm sm p P f m m') (hs : start → sm)
    (hk : ∀ a, Watch ns z (f a) p Q g (k a) (k' a)) (hh : ∀ e, Watch ns z (ns → zm → ¬ e.hollow) p Q g (h e) (h' e))
    (hc : ∀ e, e.caught = false → (ns ∨ e ≠ .other "AttributeError") → h' e = St.pure (.error e))
    (hPQ : ∀ a b, P a → Q b → a.rank < b.rank) (hq : ¬ P .conv) : Watch ns z start p (fun st => P st ∨ Q st) g (St.handle m k h) (St.handle m' k' h') := by
  intro s
  obtain ⟨evs, h1, h2⟩ := hm s
  unfold St.handle
  simp only [h1]
  rcases hx : m s with ⟨x, s'⟩
  rw [hx] at h2
  cases x with
  | error x =>
    dsimp only
    obtain ⟨evs', h3, h4⟩ := hh x s'
    refine ⟨evs ++ evs', fun l => by rw [h3, List.append_assoc], h2.seq h4 hPQ (fun _ h => (hq h).elim) ?_ ?_ id⟩
    · intro y hy hcy ha
      cases hy
      have h5 := hc x hcy ha
      have h6 := h3 []
      rw [h5] at h6
      simp only [St.pure, Prod.mk.injEq] at h6
      obtain ⟨h6, h7, h8⟩ := h6
      exact ⟨h8.symm, h6.symm⟩
    · intro hn _
      exact .inl fun hn hz => h2.sane hn hz x rfl
  | ok a =>
    dsimp only
    obtain ⟨evs', h3, h4⟩ := hk a s'
    refine ⟨evs ++ evs', fun l => by rw [h3, List.append_assoc], h2.seq h4 hPQ (fun _ h => (hq h).elim) nofun ?_ id⟩
    intro hn hs'
    exact .inl (h2.errs hn (hs'.imp hs id))
/-- Something without calls after a computation. -/
theorem Watch.after {f : α → Prop} {g : β → Prop} {m : St σ α} {m' : St (σ × List Call) α} {k : α → R β} (hm : Watch ns z start p P f m m')
    (hk : ∀ a, ns → f a → Bad g (k a)) (hz : ∀ a x, ns → z → k a = .error x → ¬ x.hollow) : Watch ns z start p P g (St.bind m fun a => St.pure (k a)) (St.bind m' fun a => St.pure (k a)) :=
  (Watch.bind (Q := fun _ => False) hm (fun a => Watch.pure (hk a) fun hn h x hx => hz a x hn h hx) (fun _ _ _ h => h.elim) (fun _ h => h.elim)).weaken
    (fun _ h => h.resolve_right id) (fun _ => ⟨id, fun _ => id⟩) id

theorem Watch.bind' {R : Step → Prop} {f : α → Prop} {g : β → Prop} {m : St σ α} {m' : St (σ × List Call) α} {k : α → St σ β} {k' : α → St (σ × List Call) β} (hm : Watch ns z start p P f m m')
    (hk : ∀ a, Watch ns z (f a) p Q g (k a) (k' a)) (hPQ : ∀ a b, P a → Q b → a.rank < b.rank) (hq : P .conv → Q .checks → ∀ a, ¬ f a) (hR : ∀ st, P st ∨ Q st → R st) :
    Watch ns z start p R g (St.bind m k) (St.bind m' k') := (Watch.bind hm hk hPQ hq).weaken hR (fun _ => ⟨id, fun _ => id⟩) id

theorem Watch.handle' {R : Step → Prop} {zm sm : Prop} {f : α → Prop} {g : β → Prop} {m : St σ α} {m' : St (σ × List Call) α} {k : α → St σ β} {k' : α → St (σ × List Call) β} {h : Exc → St σ β}
    {h' : Exc → St (σ × List Call) β} (hm : Watch ns zm sm p P f m m') (hs : start → sm)
    (hk : ∀ a, Watch ns z (f a) p Q g (k a) (k' a)) (hh : ∀ e, Watch ns z (ns → zm → ¬ e.hollow) p Q g (h e) (h' e))
    (hc : ∀ e, e.caught = false → (ns ∨ e ≠ .other "AttributeError") → h' e = St.pure (.error e))
    (hPQ : ∀ a b, P a → Q b → a.rank < b.rank) (hq : ¬ P .conv) (hR : ∀ st, P st ∨ Q st → R st) : Watch ns z start p R g (St.handle m k h) (St.handle m' k' h') :=
  (Watch.handle hm hs hk hh hc hPQ hq).weaken hR (fun _ => ⟨id, fun _ => id⟩) id
end rules

/-! ## The engine -/

/-- No user code raises `DataError({})`. -/
structure Hooks.Solid (h : Hooks σ) : Prop where
  dflt : ∀ p c fd s x, (h.dflt p c fd s).1 = .error x → ¬ x.hollow
  native : ∀ p l app v s x, (h.native p l app v s).1 = .error x → ¬ x.hollow
  override : ∀ p g b app v s x, (h.override p g b app v s).1 = .error x → ¬ x.hollow
  check : ∀ p f app v s x, (h.check p f app v s).1 = .error x → ¬ x.hollow
  model : ∀ p f m d v app s x, (h.model p f m d v app s).1 = .error x → ¬ x.hollow
  setter : ∀ p f w s x, (h.setter p f w s).1 = .error x → ¬ x.hollow

/-- The program has no setters and its user code does not raise `DataError({})`. -/
structure Tame (h : Hooks σ) (env : Env) : Prop where
  solid : h.Solid
  settable : ∀ k c, env.cls k = some c → c.settable = []

theorem Dict.set_ne_nil [DecidableEq K] (d : Dict K V) (k : K) (v : V) : d.set k v ≠ [] := by
  intro h
  have h1 := Dict.get?_set_self d k v
  rw [h] at h1
  cases h1

/-- No value carries errors. -/
abbrev never : α → Prop := fun _ => False

section pass
variable {h : Hooks σ} {recH : HRec σ} {recW : HRec (σ × List Call)} {env : Env} {ns : Prop}

theorem fillValueH_watch (hs : ns → h.Solid) (p : Place) (ctx : Ctx) (c : ClassDef) (fd : FieldDef) (v : Val) :
    Watch ns True False p (· = .dflt) never (fillValueH h p ctx c fd v) (fillValueH h.watched p ctx c fd v) := by
  unfold fillValueH
  refine Watch.after (f := never) ?_ (fun _ _ h => h.elim) nofun
  split
  · exact Watch.leaf fun hn => (hs hn).dflt _ _ _
  · exact Watch.ok fun _ h => h

theorem failReplH_watch (hs : ns → h.Solid) (p : Place) (ctx : Ctx) (c : ClassDef) (fd : FieldDef) (e : Exc) :
    Watch ns True False p (· = .repl) never (failReplH h p ctx c fd e) (failReplH h.watched p ctx c fd e) := by
  unfold failReplH
  refine Watch.after (f := never) ?_ (fun _ _ h => h.elim) nofun
  split
  · exact Watch.leaf fun hn => (hs hn).dflt _ _ _
  · exact Watch.ok fun _ h => h

/-- The steps of a value. -/
abbrev valueSteps : Step → Prop := fun st => st = .conv ∨ st = .checks

/-- What is assumed of the recursive calls. -/
def RecWatch (ns : Prop) (recH : HRec σ) (recW : HRec (σ × List Call)) : Prop := ∀ p ctx b f v, Watch ns False False p valueSteps never (recH p ctx b f v) (recW p ctx b f v)

/-- The outcome is an error. -/
def Outcome.failed : Outcome → Prop
  | .fail _ _ => True
  | _ => False

theorem fieldOutcomeH_watch (hs : ns → h.Solid) (hr : RecWatch ns recH recW) (p : Place) (ctx : Ctx) (c : ClassDef) (raw : Data) (inData : Bool) (fd : FieldDef) :
    Watch ns True False p (fun _ => True) Outcome.failed (fieldOutcomeH h recH env p ctx c raw inData fd) (fieldOutcomeH h.watched recW env p ctx c raw inData fd) := by
  unfold fieldOutcomeH
  split
  · exact Watch.ok fun _ h => h.elim
  · refine Watch.bind' (P := (· = .dflt)) (Q := fun st => st = .value ∨ st = .repl) (fillValueH_watch hs p ctx c fd _) (fun v => ?_) ?_ ?_ (fun _ _ => trivial)
    · refine Watch.handle' (P := (· = .value)) (Q := (· = .repl)) (Watch.embed (hr _ _ _ _ _)) id (fun w => ?_) (fun e => ?_) (fun e hc _ => ?_) ?_ ?_ (fun _ h => h)
      · exact Watch.ok fun _ h => h.elim
      · split
        · refine Watch.weaken (start := True) ?_ (fun _ => id) (fun _ => ⟨fun _ => trivial, fun _ => id⟩) id
          exact Watch.after (failReplH_watch hs p ctx c fd e).any (fun _ _ _ => trivial) (fun _ _ _ _ h => by cases h)
        · rename_i hc
          refine Watch.pure (fun _ _ => trivial) ?_
          intro _ _ x hx
          cases hx
          cases e <;> first | exact id | exact absurd rfl hc
      · rw [hc]; rfl
      · rintro a b rfl rfl; decide
      · nofun
    · rintro a b rfl (rfl | rfl) <;> decide
    · nofun

theorem Acc.apply_failed (a : Acc) (fd : FieldDef) (o : Outcome) (ho : a.errs ≠ [] ∨ o.failed) : (a.apply fd o).errs ≠ [] := by
  cases o with
  | skip => exact ho.resolve_right id
  | store v => exact ho.resolve_right id
  | fail t r => exact Dict.set_ne_nil _ _ _

/-- The steps `at j` from `i` on. -/
abbrev fromStep (i : Nat) : Step → Prop := fun st => ∃ j, i ≤ j ∧ st = .at j

theorem importFieldsH_watch (hs : ns → h.Solid) (hr : RecWatch ns recH recW) (p : Place) (ctx : Ctx) (c : ClassDef) (raw : Data) (fds : List FieldDef) :
    ∀ i a, Watch ns True (a.errs ≠ []) (p ++ [.fields]) (fromStep i) (fun a => a.errs ≠ []) (importFieldsH h recH env p ctx c raw i fds a) (importFieldsH h.watched recW env p ctx c raw i fds a) := by
  induction fds with
  | nil => intro i a; exact Watch.ok fun _ h => h
  | cons fd fds ih =>
    intro i a
    unfold importFieldsH
    refine Watch.bind' (P := (· = .at i)) (Q := fromStep (i + 1)) (f := fun o => a.errs ≠ [] ∨ o.failed) ?_ (fun o => (ih (i + 1) _).weaken (fun _ => id) (fun _ => ⟨Acc.apply_failed a fd o, fun _ => id⟩) id) ?_ ?_ ?_
    · have h1 := Watch.embed (fieldOutcomeH_watch (env := env) hs hr (p ++ [.fields] ++ [.at i]) ctx c raw (a.data.has (.str fd.name)) fd)
      intro s
      obtain ⟨evs, h2, h3⟩ := h1 s
      refine ⟨evs, h2, ⟨h3.within, h3.order, h3.crash, ?_, h3.quiet, h3.sane⟩⟩
      intro hn hx
      generalize hy : (fieldOutcomeH h recH env (p ++ [.fields] ++ [.at i]) ctx c raw (a.data.has (.str fd.name)) fd s).1 = y at h3 ⊢
      cases y with
      | error _ => trivial
      | ok o =>
        rcases hx with hx | hx
        · exact .inl hx
        · exact .inr (h3.errs hn (.inr hx))
    · rintro a b rfl ⟨j, hj, rfl⟩; exact hj
    · nofun
    · rintro st (rfl | ⟨j, hj, rfl⟩)
      · exact ⟨i, Nat.le_refl _, rfl⟩
      · exact ⟨j, Nat.le_of_succ_le hj, rfl⟩

theorem importBodyH_watch (hs : ns → h.Solid) (hr : RecWatch ns recH recW) (p : Place) (ctx : Ctx) (c : ClassDef) (raw : Data) (errs0 : Errs) :
    Watch ns True (errs0 ≠ []) p (· = .fields) never (importBodyH h recH env p ctx c raw errs0) (importBodyH h.watched recW env p ctx c raw errs0) := by
  unfold importBodyH
  refine Watch.after (f := fun a => a.errs ≠ []) ((Watch.embed (importFieldsH_watch hs hr p ctx c raw _ 0 _)).weaken (fun _ => id) (fun _ => ⟨?_, fun _ => id⟩) id) ?_ ?_
  · intro h0
    dsimp only
    generalize rogueKeys ctx c raw = ks
    induction ks generalizing errs0 with
    | nil => exact h0
    | cons k ks ih => exact ih _ (Dict.set_ne_nil _ _ _)
  · intro a _ ha
    unfold finishImport
    rw [if_neg (by simpa using ha)]
    trivial
  · intro a x _ _ hx
    unfold finishImport at hx
    split at hx
    · cases hx
    · rename_i hne
      cases hx
      cases he : a.errs with
      | nil => rw [he] at hne; exact absurd rfl hne
      | cons _ _ => exact id

theorem callSetterH_watch (hs : ns → h.Solid) (p : Place) (fd : FieldDef) (w : Val) : Watch ns False False p (· = .assign) never (callSetterH h (p ++ [.assign]) fd w) (callSetterH h.watched (p ++ [.assign]) fd w) := by
  unfold callSetterH
  cases fd.fset with
  | none => exact Watch.ok fun _ h => h
  | some g => exact Watch.leaf fun hn => (hs hn).setter _ _ _

theorem runSettersH_watch (hs : ns → h.Solid) (hr : RecWatch ns recH recW) (p : Place) (ctx : Ctx) (raw : Data) (onInst : Bool) (fds : List FieldDef) (hn : ns → fds = []) :
    ∀ i es d, Watch ns False (es ≠ []) (p ++ [.setters]) (fromStep i) (fun r => r.1 ≠ []) (runSettersH h recH p ctx raw onInst i fds es d) (runSettersH h.watched recW p ctx raw onInst i fds es d) := by
  cases fds with
  | nil => intro i es d; exact Watch.ok fun _ h => h
  | cons fd0 fds0 =>
    have hns : ¬ ns := fun h => by cases hn h
    generalize fd0 :: fds0 = fds at *
    clear hn
    induction fds with
    | nil => intro i es d; exact Watch.ok fun _ h => h
    | cons fd fds ih =>
      intro i es d
      have up : ∀ st, fromStep (i + 1) st → fromStep i st := by
        rintro st ⟨j, hj, rfl⟩
        exact ⟨j, Nat.le_of_succ_le hj, rfl⟩
      unfold runSettersH
      split
      · exact (ih (i + 1) es d).weaken up (fun _ => ⟨id, fun _ => id⟩) id
      · refine Watch.handle' (P := (· = .at i)) (Q := fromStep (i + 1)) (sm := es ≠ []) (zm := False) (f := fun _ => True) ?_ id (fun asg => (ih (i + 1) es _).vacuous hns) (fun e => ?_) ?_ ?_ nofun ?_
        · refine Watch.vacuous (start := False) (f := never) (z := False) ?_ hns
          refine Watch.embed (P := fun st => st = .input ∨ st = .assign) ?_
          refine Watch.bind' (Watch.embed (hr _ _ _ _ _)) (fun w => callSetterH_watch hs _ fd w) ?_ nofun (fun _ => id)
          rintro a b rfl rfl; decide
        · cases hx : setterError fd es e with
          | error y => exact Watch.vacuous (z := False) (start := False) (f := never) (Watch.pure nofun nofun) hns
          | ok es' => exact (ih (i + 1) es' d).vacuous hns
        · intro e hc ha
          have : setterError fd es e = .error e := by
            unfold setterError
            rw [if_neg (by rw [hc]; nofun)]
            split
            · exact absurd rfl (ha.resolve_left hns)
            · rfl
          rw [this]
          rfl
        · rintro a b rfl ⟨j, hj, rfl⟩; exact hj
        · rintro st (rfl | h)
          · exact ⟨i, Nat.le_refl _, rfl⟩
          · exact up _ h

theorem runMutateH_watch (hs : ns → h.Solid) (hr : RecWatch ns recH recW) (p : Place) (ctx : Ctx) (c : ClassDef) (hn : ns → c.settable = []) (mu : Mut) (raw : Data) :
    Watch ns False False p (· = .setters) (fun m => m.errs ≠ []) (runMutateH h recH p ctx c mu raw) (runMutateH h.watched recW p ctx c mu raw) := by
  unfold runMutateH
  cases mu with
  | inst d =>
    refine Watch.after (f := fun r => r.1 ≠ []) ((Watch.embed (runSettersH_watch hs hr p ctx raw true _ hn 0 [] d)).weaken (fun _ => id) (fun _ => ⟨fun h => h.elim, fun _ => id⟩) id) ?_ nofun
    intro r _ h
    exact h
  | same b =>
    refine Watch.after (f := fun r => r.1 ≠ []) ((Watch.embed (runSettersH_watch hs hr p ctx raw false _ hn 0 [] [])).weaken (fun _ => id) (fun _ => ⟨fun h => h.elim, fun _ => id⟩) id) ?_ nofun
    intro r _ h
    cases b
    · exact h
    · trivial

theorem importLoopH_watch (hs : ns → h.Solid) (hr : RecWatch ns recH recW) (p : Place) (ctx : Ctx) (c : ClassDef) (hn : ns → c.settable = []) (mu : Mut) (raw : Data) :
    Watch ns False False p (fun st => st = .setters ∨ st = .fields) never (importLoopH h recH env p ctx c mu raw) (importLoopH h.watched recW env p ctx c mu raw) := by
  unfold importLoopH
  split
  · refine Watch.bind' (runMutateH_watch hs hr p ctx c hn mu raw) (fun m => (importBodyH_watch hs hr p ctx c m.raw m.errs).weaken (fun _ => id) (fun _ => ⟨id, fun _ => id⟩) False.elim) ?_ nofun (fun _ => id)
    rintro a b rfl rfl; decide
  · exact (importBodyH_watch hs hr p ctx c raw []).weaken (fun _ => .inr) (fun _ => ⟨fun h => h.elim, fun _ => id⟩) False.elim

theorem modelValidatorsH_watch (hs : ns → h.Solid) (p : Place) (c : ClassDef) (mv : Data) (app : Val) (fds : List FieldDef) :
    ∀ i d, Watch ns False False (p ++ [.methods]) (fromStep i) (fun r => r.1 ≠ []) (modelValidatorsH h p c mv app i fds d) (modelValidatorsH h.watched p c mv app i fds d) := by
  induction fds with
  | nil => intro i d; exact Watch.ok fun _ h => h.elim
  | cons fd fds ih =>
    intro i d
    have up : ∀ st, fromStep (i + 1) st → fromStep i st := by
      rintro st ⟨j, hj, rfl⟩
      exact ⟨j, Nat.le_of_succ_le hj, rfl⟩
    unfold modelValidatorsH
    cases methodFor c d fd with
    | none => exact (ih (i + 1) d).weaken up (fun _ => ⟨id, fun _ => id⟩) id
    | some f =>
      refine Watch.handle' (P := (· = .at i)) (Q := fromStep (i + 1)) (f := never) (zm := False) (sm := False) (Watch.leaf fun hn => (hs hn).model _ _ _ _ _ _) id
        (fun d' => ih (i + 1) d') (fun e => ?_) ?_ ?_ nofun ?_
      · refine Watch.weaken (start := True) (z := False) ?_ (fun _ => id) (fun _ => ⟨fun _ => trivial, fun _ => id⟩) id
        cases modelError e with
        | error y => exact Watch.pure (fun _ _ => trivial) nofun
        | ok t => exact Watch.after (ih (i + 1) d).any (fun _ _ _ => nofun) nofun
      · intro e hc _
        cases e <;> first | rfl | cases hc
      · rintro a b rfl ⟨j, hj, rfl⟩; exact hj
      · rintro st (rfl | h)
        · exact ⟨i, Nat.le_refl _, rfl⟩
        · exact up _ h

theorem Dict.update_ne_nil_right [DecidableEq K] (d : Dict K V) (e : Dict K V) (h : e ≠ []) : d.update e ≠ [] := by
  induction e generalizing d with
  | nil => exact (h rfl).elim
  | cons kv e ih =>
    rw [Dict.update_cons]
    cases e with
    | nil => exact Dict.set_ne_nil _ _ _
    | cons kv' e => exact ih _ nofun

theorem Dict.update_ne_nil_left [DecidableEq K] (d : Dict K V) (e : Dict K V) (h : d ≠ []) : d.update e ≠ [] := by
  cases e with
  | nil => exact h
  | cons kv e => exact Dict.update_ne_nil_right _ _ nofun

theorem validateFnH_watch (hs : ns → h.Solid) (hr : RecWatch ns recH recW) (p : Place) (ctx : Ctx) (c : ClassDef) (hn : ns → c.settable = []) (mu : Mut) (raw : Data) :
    Watch ns False False p (fun st => st = .setters ∨ st = .fields ∨ st = .methods) never (validateFnH h recH env p ctx c mu raw) (validateFnH h.watched recW env p ctx c mu raw) := by
  unfold validateFnH
  refine Watch.bind' (Q := fun st => st = .fields ∨ st = .methods) (runMutateH_watch hs hr p ctx c hn mu raw) (fun m => ?_) ?_ nofun (fun _ => id)
  · refine Watch.bind' (P := (· = .fields)) (Q := (· = .methods)) (f := fun r => r.1 ≠ []) ?_ (fun r => ?_) ?_ nofun (fun _ => id)
    · refine Watch.handle' (Q := fun _ => False) (zm := True) (f := never) (importBodyH_watch hs hr p ctx c m.raw m.errs) id (fun d => Watch.ok fun _ h => h.elim) (fun e => ?_) ?_ (fun _ _ _ h => h.elim) nofun
        (fun _ h => h.resolve_right id)
      · refine Watch.pure ?_ nofun
        intro hn he
        cases e with
        | data es d =>
          cases es with
          | nil => exact (he hn trivial trivial).elim
          | cons _ _ => exact nofun
        | _ => trivial
      · intro e hc _
        cases e <;> first | rfl | cases hc
    · refine Watch.after (f := fun x => r.1 ≠ [] ∨ x.1 ≠ []) ?_ ?_ nofun
      · have h1 : Watch ns False False p (· = .methods) (fun x : Errs × Data => x.1 ≠ []) (St.bind (modelValidatorsH h p c m.data ctx.app 0 c.fields r.2) fun x => St.pure (finishModel x))
            (St.bind (modelValidatorsH h.watched p c m.data ctx.app 0 c.fields r.2) fun x => St.pure (finishModel x)) := by
          refine Watch.after (Watch.embed (modelValidatorsH_watch hs p c m.data ctx.app c.fields 0 r.2)) ?_ nofun
          intro a _ ha
          unfold finishModel
          cases popAll a.2.1 a.2.2 with
          | error e => trivial
          | ok d => exact Dict.update_ne_nil_right _ _ ha
        intro s
        obtain ⟨evs, h2, h3⟩ := h1 s
        refine ⟨evs, h2, ⟨h3.within, h3.order, h3.crash, ?_, h3.quiet, h3.sane⟩⟩
        intro hn hx
        generalize hy : (St.bind (modelValidatorsH h p c m.data ctx.app 0 c.fields r.2) (fun x => St.pure (finishModel x)) s).1 = y at h3 ⊢
        cases y with
        | error _ => trivial
        | ok o =>
          rcases hx with hx | hx
          · exact .inl hx
          · exact .inr (h3.errs hn (.inr hx))
      · intro a _ ha
        unfold finishBoth
        rw [if_neg]
        · trivial
        · rw [List.isEmpty_iff]
          rcases ha with ha | ha
          · exact Dict.update_ne_nil_left _ _ ha
          · exact Dict.update_ne_nil_right _ _ ha
    · rintro a b rfl rfl; decide
  · rintro a b rfl (rfl | rfl) <;> decide

theorem listLoopH_watch {f : Nat → Val → St σ Val} {f' : Nat → Val → St (σ × List Call) Val} {p : Place} (hf : ∀ i v, Watch ns False False (p ++ [.at i]) valueSteps never (f i v) (f' i v)) (xs : List Val) :
    ∀ i, Watch ns False False p (fromStep i) (fun r => r.2 ≠ []) (listLoopH f i xs) (listLoopH f' i xs) := by
  induction xs with
  | nil => intro i; exact Watch.ok fun _ h => h.elim
  | cons x xs ih =>
    intro i
    unfold listLoopH
    refine Watch.handle' (P := (· = .at i)) (Q := fromStep (i + 1)) (f := never) (Watch.embed (hf i x)) id (fun y => ?_) (fun e => ?_) ?_ ?_ nofun ?_
    · refine Watch.after (f := fun r => r.2 ≠ []) (ih (i + 1)) ?_ nofun
      intro r _ h
      exact h
    · refine Watch.weaken (start := True) (z := False) ?_ (fun _ => id) (fun _ => ⟨fun _ => trivial, fun _ => id⟩) id
      split
      · exact Watch.after (ih (i + 1)).any (fun _ _ _ => nofun) nofun
      · exact Watch.pure (fun _ _ => trivial) nofun
    · intro e hc _
      rw [hc]; rfl
    · rintro a b rfl ⟨j, hj, rfl⟩; exact hj
    · rintro st (rfl | ⟨j, hj, rfl⟩)
      · exact ⟨i, Nat.le_refl _, rfl⟩
      · exact ⟨j, Nat.le_of_succ_le hj, rfl⟩

theorem dictLoopH_watch {f : Nat → Val → St σ Val} {f' : Nat → Val → St (σ × List Call) Val} {p : Place} (hf : ∀ i v, Watch ns False False (p ++ [.at i]) valueSteps never (f i v) (f' i v))
    (coerce : Key → R Key) (kvs : List (Key × Val)) :
    ∀ i d es, Watch ns False (es ≠ []) p (fromStep i) (fun r => r.2 ≠ []) (dictLoopH f coerce i kvs d es) (dictLoopH f' coerce i kvs d es) := by
  induction kvs with
  | nil => intro i d es; exact Watch.ok fun _ h => h
  | cons kv kvs ih =>
    obtain ⟨k, x⟩ := kv
    intro i d es
    unfold dictLoopH
    refine Watch.handle' (P := (· = .at i)) (Q := fromStep (i + 1)) (f := fun _ => es ≠ []) (sm := es ≠ []) (zm := False) ?_ id (fun r => ih (i + 1) _ es) (fun e => ?_) ?_ ?_ nofun ?_
    · exact Watch.carry (f := never) (Watch.after (f := never) (Watch.embed (hf i x)) (fun _ _ h => h.elim) nofun) (fun _ _ => id)
    · refine Watch.weaken (start := True) (z := False) ?_ (fun _ => id) (fun _ => ⟨fun _ => trivial, fun _ => id⟩) id
      split
      · exact (ih (i + 1) d (Dict.set es k e.tree)).weaken (fun _ => id) (fun _ => ⟨fun _ => Dict.set_ne_nil _ _ _, fun _ => id⟩) id
      · exact Watch.pure (fun _ _ => trivial) nofun
    · intro e hc _
      rw [hc]; rfl
    · rintro a b rfl ⟨j, hj, rfl⟩; exact hj
    · rintro st (rfl | ⟨j, hj, rfl⟩)
      · exact ⟨i, Nat.le_refl _, rfl⟩
      · exact ⟨j, Nat.le_of_succ_le hj, rfl⟩

theorem newInstanceH_watch (hs : ns → h.Solid) (hr : RecWatch ns recH recW) (p : Place) (ctx : Ctx) (c : ClassDef) (hn : ns → c.settable = []) (raw : Data) :
    Watch ns False False p (fun _ => True) never (newInstanceH h recH env p ctx c raw) (newInstanceH h.watched recW env p ctx c raw) := by
  unfold newInstanceH
  refine Watch.after (f := never) ?_ (fun _ _ h => h.elim) nofun
  split
  · exact (validateFnH_watch hs hr p ctx c hn _ raw).weaken (fun _ _ => trivial) (fun _ => ⟨id, fun _ => id⟩) id
  · exact (importLoopH_watch hs hr p ctx c hn _ raw).weaken (fun _ _ => trivial) (fun _ => ⟨id, fun _ => id⟩) id

theorem modelIntoH_watch (hs : ns → h.Solid) (hr : RecWatch ns recH recW) (p : Place) (ctx : Ctx) (c : ClassDef) (hn : ns → c.settable = []) (raw : Data) (b : Bool) :
    Watch ns False False p (fun _ => True) never (modelIntoH h recH env p ctx c raw b) (modelIntoH h.watched recW env p ctx c raw b) := by
  unfold modelIntoH
  split
  · exact newInstanceH_watch hs hr p ctx c hn raw
  · exact Watch.after (f := never) ((importLoopH_watch hs hr p ctx c hn _ raw).weaken (fun _ _ => trivial) (fun _ => ⟨id, fun _ => id⟩) id) (fun _ _ h => h.elim) nofun

theorem modelArgs_cls {env : Env} {cls : String} {v : Val} {r : ClassDef × Data × Bool} (h : modelArgs env cls v = .ok r) : ∃ k, env.cls k = some r.1 := by
  unfold modelArgs at h
  cases v with
  | inst c' d =>
    dsimp only at h
    split at h
    · cases hc : env.cls c' with
      | none => rw [hc] at h; cases h
      | some c => rw [hc] at h; cases h; exact ⟨_, hc⟩
    · cases h
  | dict d =>
    dsimp only at h
    cases hc : env.cls cls with
    | none => rw [hc] at h; cases h
    | some c => rw [hc] at h; cases h; exact ⟨_, hc⟩
  | _ => cases h

theorem polyArgs_cls {env : Env} {ctx : Ctx} {q : PolySpec} {v : Val} {c : ClassDef} {raw : Data} (h : polyArgs env ctx q v = .ok (.make c raw)) : ∃ k, env.cls k = some c := by
  unfold polyArgs at h
  split at h
  · cases h
  · split at h
    · cases h
    · cases hf : q.findModel env v with
      | error e => rw [hf] at h; cases h
      | ok k =>
        rw [hf] at h
        dsimp only at h
        cases hc : env.cls k with
        | none => rw [hc] at h; cases h
        | some c' =>
          rw [hc] at h
          refine ⟨k, hc.trans ?_⟩
          cases v <;> first
            | (cases h; rfl)
            | (dsimp only at h; split at h <;> (cases h <;> rfl))

theorem modelConvH_watch (hs : ns → h.Solid) (hn : ns → ∀ k c, env.cls k = some c → c.settable = []) (hr : RecWatch ns recH recW) (p : Place) (ctx : Ctx) (cls : String) (v : Val) :
    Watch ns False False p (fun _ => True) never (modelConvH h recH env p ctx cls v) (modelConvH h.watched recW env p ctx cls v) := by
  unfold modelConvH
  cases hr' : modelArgs env cls v with
  | error e => exact Watch.pure (fun _ h => h.elim) nofun
  | ok r =>
    obtain ⟨k, hk⟩ := modelArgs_cls hr'
    exact modelIntoH_watch hs hr p ctx r.1 (fun h => hn h k _ hk) r.2.1 r.2.2

theorem polyConvH_watch (hs : ns → h.Solid) (hn : ns → ∀ k c, env.cls k = some c → c.settable = []) (hr : RecWatch ns recH recW) (p : Place) (ctx : Ctx) (q : PolySpec) (v : Val) :
    Watch ns False False p (fun _ => True) never (polyConvH h recH env p ctx q v) (polyConvH h.watched recW env p ctx q v) := by
  unfold polyConvH
  cases hr' : polyArgs env ctx q v with
  | error e => exact Watch.pure (fun _ h => h.elim) nofun
  | ok r =>
    cases r with
    | keep v => exact Watch.ok fun _ h => h
    | make c raw =>
      obtain ⟨k, hk⟩ := polyArgs_cls hr'
      exact newInstanceH_watch hs hr p ctx c (fun h => hn h k _ hk) raw

theorem convertFH_watch (hs : ns → h.Solid) (hn : ns → ∀ k c, env.cls k = some c → c.settable = []) (hr : RecWatch ns recH recW) (p : Place) (ctx : Ctx) (f : Field) (v : Val) :
    Watch ns False False p (· = .conv) never (convertFH h recH env p ctx f v) (convertFH h.watched recW env p ctx f v) := by
  unfold convertFH
  cases f.ty with
  | leaf l => exact Watch.leaf fun hn => (hs hn).native _ _ _ _
  | list inner mn mx =>
    dsimp only
    cases coerceList env v with
    | none => exact Watch.pure (fun _ h => h.elim) nofun
    | some xs =>
      dsimp only
      refine Watch.after (Watch.embed (listLoopH_watch (fun i v => hr _ ctx false inner v) xs 0)) ?_ nofun
      intro a _ ha
      unfold finishList
      rw [if_neg (by rw [List.isEmpty_iff]; exact ha)]
      trivial
  | dict inner coerce =>
    dsimp only
    cases v <;> first
      | exact Watch.pure (fun _ h => h.elim) nofun
      | (dsimp only
         refine Watch.after (f := fun r => r.2 ≠ []) ((Watch.embed (dictLoopH_watch (fun i v => hr _ ctx false inner v) coerce _ 0 [] [])).weaken (fun _ => id) (fun _ => ⟨fun h => h.elim, fun _ => id⟩) id) ?_ nofun
         intro a _ ha
         unfold finishDict
         rw [if_neg (by rw [List.isEmpty_iff]; exact ha)]
         trivial)
  | model cls => exact Watch.embed (modelConvH_watch hs hn hr _ ctx cls v)
  | poly p => exact Watch.embed (polyConvH_watch hs hn hr _ ctx p v)

theorem runValidatorsH_watch (hs : ns → h.Solid) (p : Place) (app v : Val) (fs : List Validator) :
    ∀ j, Watch ns False False (p ++ [.checks]) (fromStep j) (fun r => r ≠ none) (runValidatorsH h p app v j fs) (runValidatorsH h.watched p app v j fs) := by
  induction fs with
  | nil => intro j; exact Watch.ok fun _ h => h.elim
  | cons f fs ih =>
    intro j
    unfold runValidatorsH
    refine Watch.handle' (P := (· = .at j)) (Q := fromStep (j + 1)) (f := never) (zm := False) (sm := False) (Watch.leaf fun hn => (hs hn).check _ _ _ _) id (fun _ => ih (j + 1)) (fun e => ?_) ?_ ?_ nofun ?_
    · refine Watch.weaken (start := True) (z := False) ?_ (fun _ => id) (fun _ => ⟨fun _ => trivial, fun _ => id⟩) id
      cases e with
      | field k m =>
        cases k with
        | valid =>
          dsimp only
          refine Watch.after (ih (j + 1)).any ?_ nofun
          intro r _ _
          cases r <;> exact nofun
        | stop => exact Watch.ok fun _ _ => nofun
        | _ => exact Watch.pure (fun _ _ => trivial) nofun
      | _ => exact Watch.pure (fun _ _ => trivial) nofun
    · intro e hc _
      cases e <;> first | rfl | cases hc
    · rintro a b rfl ⟨i, hi, rfl⟩; exact hi
    · rintro st (rfl | ⟨i, hi, rfl⟩)
      · exact ⟨j, Nat.le_refl _, rfl⟩
      · exact ⟨i, Nat.le_of_succ_le hi, rfl⟩

theorem finishValidationH_watch (hs : ns → h.Solid) (p : Place) (app v : Val) (fs : List Validator) :
    Watch ns False False p (· = .checks) never (finishValidationH h p app v fs) (finishValidationH h.watched p app v fs) := by
  unfold finishValidationH
  refine Watch.after (Watch.embed (runValidatorsH_watch hs p app v fs 0)) ?_ nofun
  intro a _ ha
  cases a with
  | none => exact (ha rfl).elim
  | some m => trivial

theorem fieldConvFH_watch (hs : ns → h.Solid) (hn : ns → ∀ k c, env.cls k = some c → c.settable = []) (hr : RecWatch ns recH recW) :
    RecWatch ns (fieldConvFH h recH env) (fieldConvFH h.watched recW env) := by
  intro p ctx named f v
  have two : ∀ w' : Val → Val, Watch ns False False p valueSteps never (St.bind (convertFH h recH env p ctx f v) fun w => finishValidationH h p ctx.app (w' w) f.allValidators)
      (St.bind (convertFH h.watched recW env p ctx f v) fun w => finishValidationH h.watched p ctx.app (w' w) f.allValidators) := by
    intro w'
    refine Watch.bind' (convertFH_watch hs hn hr p ctx f v) (fun w => finishValidationH_watch hs p ctx.app (w' w) _) ?_ (fun _ _ _ => id) (fun _ => id)
    rintro a b rfl rfl; decide
  unfold fieldConvFH
  split
  · exact Watch.pure (fun _ h => h.elim) nofun
  · split
    · exact Watch.ok fun _ h => h
    · cases ctx.conv with
      | imp => exact (convertFH_watch hs hn hr p ctx f v).weaken (fun _ => .inl) (fun _ => ⟨id, fun _ => id⟩) id
      | val =>
        dsimp only
        unfold validateFH
        cases f.ty.override with
        | some g => exact (Watch.leaf (st := .conv) fun hn => (hs hn).override _ _ _ _ _).weaken (fun _ => .inl) (fun _ => ⟨id, fun _ => id⟩) id
        | none =>
          dsimp only
          split
          · exact two id
          · split
            · exact two fun _ => v
            · exact (finishValidationH_watch hs p ctx.app v _).weaken (fun _ => .inr) (fun _ => ⟨id, fun _ => id⟩) id

theorem fieldConvH_watch (hs : ns → h.Solid) (hn : ns → ∀ k c, env.cls k = some c → c.settable = []) (n : Nat) : RecWatch ns (fieldConvH h env n) (fieldConvH h.watched env n) := by
  induction n with
  | zero => intro p ctx b f v; exact Watch.pure (fun _ h => h.elim) nofun
  | succ n ih => exact fieldConvFH_watch hs hn ih
end pass
end Verif
