import Verif.Lib.RefThreads

/-! # C105: resolving a model reference in several threads -/
namespace Verif.ImportString

/-! ## Specification -/

/-- A thread which has not begun. -/
def Pc.Fresh : Pc → Prop
  | .start => True
  | .setup _ _ => True
  | _ => False

/-- A thread which is not on its way to a write: it has not begun, is about to return the class it has seen, or has finished. -/
def Pc.Idle : Pc → Prop
  | .load => False
  | .store _ => False
  | .assign _ => False
  | _ => True

/-- `o` is what the name denoted at some moment of the schedule when a thread asked for it, or the class whose creation had set it up, or what the reference held before. -/
def Denotes (name : String) (s : Sys) (es : List (Nat × Modules)) (o : Obj) : Prop :=
  s.cell = some o ∨ (∃ e ∈ es, importString e.2 name = .obj o) ∨ Pc.setup name o ∈ s.threads

/-! ## Lemmas -/

variable {truthy : Obj → Bool} {name : String}

/-- Invariant: everything that is written, returned or about to be written has a source; `None` is never returned. -/
structure Sourced (P : Obj → Prop) (Q : Nat → Found → Prop) (s : Sys) : Prop where
  cell : ∀ o, s.cell = some o → P o
  store : ∀ (i : Nat) (o : Obj), s.threads[i]? = some (.store o) → P o
  assign : ∀ (i : Nat) (o : Obj), s.threads[i]? = some (.assign o) → P o
  setup : ∀ (i : Nat) (o : Obj), s.threads[i]? = some (.setup name o) → P o
  done : ∀ (i : Nat) (r : Option Found), s.threads[i]? = some (.done r) → (∃ o, r = some (.obj o) ∧ P o) ∨ ∃ f, r = some f ∧ (∀ o, f ≠ .obj o) ∧ Q i f
  again : (∃ i : Nat, s.threads[i]? = some .again) → s.cell ≠ none

theorem get_set {ts : List Pc} {i j : Nat} {p q r : Pc} (hi : ts[i]? = some p) (h : (ts.set i q)[j]? = some r) : (j = i ∧ r = q) ∨ (j ≠ i ∧ ts[j]? = some r) := by
  rw [List.getElem?_set] at h
  split at h
  · rename_i hij
    split at h
    · exact Or.inl ⟨hij.symm, (Option.some.inj h).symm⟩
    · cases h
  · rename_i hij
    exact Or.inr ⟨fun hh => hij hh.symm, h⟩

theorem act_cell (M : Modules) (c : Option Obj) (p : Pc) (h : c ≠ none) : (act truthy name M c p).1 ≠ none := by
  cases p with
  | load => unfold act; cases importString M name <;> exact h
  | store o => simp [act]
  | assign o => simp [act]
  | _ => exact h

theorem Sourced.step {P : Obj → Prop} {Q : Nat → Found → Prop} {s : Sys} (h : Sourced (name := name) P Q s) (e : Nat × Modules)
    (hP : ∀ o, importString e.2 name = .obj o → P o) (hQ : ∀ f, importString e.2 name = f → Q e.1 f) : Sourced (name := name) P Q (s.step truthy name e) := by
  unfold Sys.step
  cases hp : s.threads[e.1]? with
  | none => exact h
  | some p =>
    have other : ∀ {q r : Pc} {j : Nat}, (s.threads.set e.1 q)[j]? = some r → r ≠ q → s.threads[j]? = some r := by
      intro q r j hj hr
      rcases get_set hp hj with ⟨_, h2⟩ | ⟨_, h2⟩
      · exact absurd h2 hr
      · exact h2
    have doneCase : ∀ {c : Option Obj} {q : Pc}, act truthy name e.2 s.cell p = (c, q) → (∀ o, c = some o → P o) → (∀ o, q = .store o → P o) → (∀ o, q = .assign o → P o) →
        (∀ o, q = .setup name o → P o) → (∀ r, q = .done r → (∃ o, r = some (.obj o) ∧ P o) ∨ ∃ f, r = some f ∧ (∀ o, f ≠ .obj o) ∧ Q e.1 f) →
        (q = .again → c ≠ none) → Sourced (name := name) P Q ⟨(act truthy name e.2 s.cell p).1, s.threads.set e.1 (act truthy name e.2 s.cell p).2⟩ := by
      intro c q ha h1 h2 h3 h4 h5 h6
      rw [ha]
      refine ⟨h1, fun i o hi => ?_, fun i o hi => ?_, fun i o hi => ?_, fun i r hi => ?_, ?_⟩
      · rcases get_set hp hi with ⟨_, hq⟩ | ⟨_, hq⟩
        · exact h2 o hq.symm
        · exact h.store i o hq
      · rcases get_set hp hi with ⟨_, hq⟩ | ⟨_, hq⟩
        · exact h3 o hq.symm
        · exact h.assign i o hq
      · rcases get_set hp hi with ⟨_, hq⟩ | ⟨_, hq⟩
        · exact h4 o hq.symm
        · exact h.setup i o hq
      · rcases get_set hp hi with ⟨rfl, hq⟩ | ⟨_, hq⟩
        · exact h5 r hq.symm
        · exact h.done i r hq
      · rintro ⟨i, hi⟩
        rcases get_set hp hi with ⟨_, hq⟩ | ⟨_, hq⟩
        · exact h6 hq.symm
        · have hc := act_cell (truthy := truthy) (name := name) e.2 s.cell p (h.again ⟨i, hq⟩)
          rw [ha] at hc; exact hc
    cases p with
    | start =>
      refine doneCase rfl h.cell ?_ ?_ ?_ ?_ ?_
      · intro o ho; split at ho <;> cases ho
      · intro o ho; split at ho <;> cases ho
      · intro o ho; split at ho <;> cases ho
      · intro o ho; split at ho <;> cases ho
      · intro hh hn
        rw [hn] at hh; cases hh
    | again =>
      refine doneCase rfl h.cell (by intro o ho; cases ho) (by intro o ho; cases ho) (by intro o ho; cases ho) ?_ (by intro h; cases h)
      intro r hr
      injection hr with hr
      subst hr
      have := h.again ⟨_, hp⟩
      cases hc : s.cell with
      | none => exact absurd hc this
      | some o => exact Or.inl ⟨o, rfl, h.cell o hc⟩
    | load =>
      cases hi : importString e.2 name with
      | obj o =>
        refine doneCase (c := s.cell) (q := .store o) (by simp [act, hi]) h.cell ?_ (by intro o ho; cases ho) (by intro o ho; cases ho) (by intro r hr; cases hr) (by intro h; cases h)
        intro o' ho'
        injection ho' with ho'
        subst ho'; exact hP _ hi
      | notFound =>
        refine doneCase (c := s.cell) (q := .done (some .notFound)) (by simp [act, hi]) h.cell (by intro o ho; cases ho) (by intro o ho; cases ho) (by intro o ho; cases ho) ?_ (by intro h; cases h)
        intro r hr
        injection hr with hr
        exact Or.inr ⟨_, hr.symm, by simp, hQ _ hi⟩
      | raised x =>
        refine doneCase (c := s.cell) (q := .done (some (.raised x))) (by simp [act, hi]) h.cell (by intro o ho; cases ho) (by intro o ho; cases ho) (by intro o ho; cases ho) ?_ (by intro h; cases h)
        intro r hr
        injection hr with hr
        exact Or.inr ⟨_, hr.symm, by simp, hQ _ hi⟩
    | store o =>
      have ho := h.store _ _ hp
      refine doneCase rfl (by intro o' h; cases h; exact ho) (by intro o ho; cases ho) (by intro o ho; cases ho) (by intro o ho; cases ho) ?_ (by intro h; cases h)
      intro r hr
      injection hr with hr
      exact Or.inl ⟨o, hr.symm, ho⟩
    | done r =>
      refine doneCase rfl h.cell (by intro o ho; cases ho) (by intro o ho; cases ho) (by intro o ho; cases ho) ?_ (by intro h; cases h)
      intro r' hr
      injection hr with hr
      subst hr; exact h.done _ _ hp
    | setup on o =>
      refine doneCase rfl h.cell ?_ ?_ ?_ ?_ ?_
      · intro o ho; split at ho <;> cases ho
      · intro o' ho
        split at ho
        · rename_i hc
          injection ho with ho
          subst ho
          simp only [Bool.and_eq_true, beq_iff_eq] at hc
          rw [← hc.2] at hp
          exact h.setup _ _ hp
        · cases ho
      · intro o ho; split at ho <;> cases ho
      · intro o ho; split at ho <;> cases ho
      · intro hh; split at hh <;> cases hh
    | assign o =>
      have ho := h.assign _ _ hp
      exact doneCase rfl (by intro o' h; cases h; exact ho) (by intro o ho; cases ho) (by intro o ho; cases ho) (by intro o ho; cases ho) (by intro r hr; cases hr) (by intro h; cases h)
    | set => exact doneCase rfl h.cell (by intro o ho; cases ho) (by intro o ho; cases ho) (by intro o ho; cases ho) (by intro r hr; cases hr) (by intro h; cases h)

theorem Sourced.run {P : Obj → Prop} {Q : Nat → Found → Prop} {s : Sys} (h : Sourced (name := name) P Q s) (es : List (Nat × Modules))
    (hP : ∀ e ∈ es, ∀ o, importString e.2 name = .obj o → P o) (hQ : ∀ e ∈ es, ∀ f, importString e.2 name = f → Q e.1 f) : Sourced (name := name) P Q (s.run truthy name es) := by
  induction es generalizing s with
  | nil => exact h
  | cons e es ih => exact ih (h.step e (hP e (by simp)) (hQ e (by simp))) (fun e' he => hP e' (by simp [he])) (fun e' he => hQ e' (by simp [he]))

theorem sourced_fresh {s : Sys} (hf : ∀ p ∈ s.threads, p.Fresh) {P : Obj → Prop} {Q : Nat → Found → Prop} (h1 : ∀ o, s.cell = some o → P o)
    (h2 : ∀ o, Pc.setup name o ∈ s.threads → P o) : Sourced (name := name) P Q s := by
  have no : ∀ {i : Nat} {p : Pc}, s.threads[i]? = some p → p.Fresh := fun h => hf _ (List.mem_of_getElem? h)
  exact ⟨h1, fun i o h => (no h).elim, fun i o h => (no h).elim, fun i o h => h2 o (List.mem_of_getElem? h), fun i r h => (no h).elim, fun ⟨i, h⟩ => (no h).elim⟩

/-! ## The theorems -/

/-- **C105** (where the class comes from).  Whatever the schedule, a thread which has finished has got a class the name denoted at some moment when a thread asked, or which was set up or held before, or
has itself been told by the import system that the name cannot be resolved; it never gets `None`. -/
theorem C105_provenance (truthy : Obj → Bool) (name : String) (s : Sys) (hf : ∀ p ∈ s.threads, p.Fresh) (es : List (Nat × Modules)) (i : Nat) (r : Option Found)
    (h : (s.run truthy name es).threads[i]? = some (.done r)) :
    (∃ o, r = some (.obj o) ∧ Denotes name s es o) ∨ ∃ f, r = some f ∧ (∀ o, f ≠ .obj o) ∧ ∃ M, (i, M) ∈ es ∧ importString M name = f := by
  have := Sourced.run (truthy := truthy) (name := name) (P := Denotes name s es) (Q := fun i f => ∃ M, (i, M) ∈ es ∧ importString M name = f)
    (sourced_fresh hf (fun o h => Or.inl h) (fun o h => Or.inr (Or.inr h))) es (fun e he o ho => Or.inr (Or.inl ⟨e, he, ho⟩)) (fun e he f hfound => ⟨e.2, he, hfound⟩)
  exact this.done i r h

/-- **C105** (all threads agree).  If throughout the schedule the name denotes the class `o`, and no other class is or has been given to the reference, then every thread that finishes gets `o`, and the reference
is unresolved or refers to `o`, whatever the schedule. -/
theorem C105_agree (truthy : Obj → Bool) (name : String) (s : Sys) (hf : ∀ p ∈ s.threads, p.Fresh) (es : List (Nat × Modules)) (o : Obj)
    (hM : ∀ e ∈ es, importString e.2 name = .obj o) (hc : ∀ x, s.cell = some x → x = o) (hs : ∀ x, Pc.setup name x ∈ s.threads → x = o) :
    (∀ (i : Nat) (r : Option Found), (s.run truthy name es).threads[i]? = some (.done r) → r = some (.obj o)) ∧ ∀ x, (s.run truthy name es).cell = some x → x = o := by
  have := Sourced.run (truthy := truthy) (name := name) (P := fun x => x = o) (Q := fun _ f => f = .obj o) (sourced_fresh hf hc hs) es
    (fun e he x hx => by rw [hM e he] at hx; exact (Found.obj.inj hx).symm) (fun e he f hx => by rw [hM e he] at hx; exact hx.symm)
  refine ⟨fun i r h => ?_, this.cell⟩
  rcases this.done i r h with ⟨x, h1, h2⟩ | ⟨f, _, h2, h3⟩
  · rw [h1, h2]
  · exact absurd h3 (h2 o)

/-- **C105** (settled).  Once the reference is resolved and no thread is on its way to a write, it refers to that class for ever: every thread that finishes afterwards gets it, whatever the schedule, the import
system and the classes created. -/
theorem C105_settled (truthy : Obj → Bool) (name : String) (s : Sys) (o : Obj) (hc : s.cell = some o) (ho : truthy o = true) (hi : ∀ p ∈ s.threads, p.Idle)
    (es : List (Nat × Modules)) :
    (s.run truthy name es).cell = some o ∧ (∀ p ∈ (s.run truthy name es).threads, p.Idle) ∧
      ∀ (i : Nat) (r : Option Found), (s.run truthy name es).threads[i]? = some (.done r) → r = some (.obj o) ∨ s.threads[i]? = some (.done r) := by
  suffices hgen : ∀ (es : List (Nat × Modules)) (t : Sys), t.cell = some o → (∀ p ∈ t.threads, p.Idle) →
      (∀ (i : Nat) (r : Option Found), t.threads[i]? = some (.done r) → r = some (.obj o) ∨ s.threads[i]? = some (.done r)) →
      (t.run truthy name es).cell = some o ∧ (∀ p ∈ (t.run truthy name es).threads, p.Idle) ∧
        ∀ (i : Nat) (r : Option Found), (t.run truthy name es).threads[i]? = some (.done r) → r = some (.obj o) ∨ s.threads[i]? = some (.done r) from
    hgen es s hc hi fun i r h => Or.inr h
  intro es
  induction es with
  | nil => exact fun t h1 h2 h3 => ⟨h1, h2, h3⟩
  | cons e es ih =>
    intro t h1 h2 h3
    have key : ∀ {q : Pc}, q.Idle → (∀ r, q = .done r → r = some (.obj o) ∨ s.threads[e.1]? = some (.done r)) →
        t.step truthy name e = ⟨some o, t.threads.set e.1 q⟩ → (t.run truthy name (e :: es)).cell = some o ∧ (∀ p ∈ (t.run truthy name (e :: es)).threads, p.Idle) ∧
        ∀ (i : Nat) (r : Option Found), (t.run truthy name (e :: es)).threads[i]? = some (.done r) → r = some (.obj o) ∨ s.threads[i]? = some (.done r) := by
      intro q hq hd he
      have hrun : t.run truthy name (e :: es) = (t.step truthy name e).run truthy name es := rfl
      rw [hrun, he]
      refine ih _ rfl (fun p hp => ?_) (fun i r hr => ?_)
      · rcases List.mem_or_eq_of_mem_set hp with hp | rfl
        · exact h2 p hp
        · exact hq
      · rw [List.getElem?_set] at hr
        split at hr
        · rename_i hij
          split at hr
          · rw [← hij]; exact hd r (Option.some.inj hr)
          · cases hr
        · exact h3 i r hr
    cases hp : t.threads[e.1]? with
    | none =>
      have : t.step truthy name e = t := by unfold Sys.step; rw [hp]
      have hrun : t.run truthy name (e :: es) = t.run truthy name es := by show (t.step truthy name e).run truthy name es = _; rw [this]
      rw [hrun]
      exact ih t h1 h2 h3
    | some p =>
      have hidle := h2 p (List.mem_of_getElem? hp)
      have hstep : t.step truthy name e = ⟨(act truthy name e.2 t.cell p).1, t.threads.set e.1 (act truthy name e.2 t.cell p).2⟩ := by
        unfold Sys.step; rw [hp]
      rw [h1] at hstep
      cases p with
      | start => exact key (q := .again) trivial (by intro r h; cases h) (by rw [hstep]; simp [act, resolved, ho])
      | again => exact key (q := .done (some (.obj o))) trivial (by intro r h; cases h; exact Or.inl rfl) (by rw [hstep]; rfl)
      | load => exact hidle.elim
      | store _ => exact hidle.elim
      | done r =>
        refine key (q := .done r) trivial ?_ (by rw [hstep]; rfl)
        intro r' h
        cases h
        exact h3 _ _ hp
      | setup on x => exact key (q := .set) trivial (by intro r h; cases h) (by rw [hstep]; simp [act, resolved, ho])
      | assign _ => exact hidle.elim
      | set => exact key (q := .set) trivial (by intro r h; cases h) (by rw [hstep]; rfl)

/-- How many actions a thread has left at most. -/
def left : Pc → Nat
  | .start => 3
  | .again => 1
  | .load => 2
  | .store _ => 1
  | .done _ => 0
  | .setup _ _ => 2
  | .assign _ => 1
  | .set => 0

theorem left_act (M : Modules) (c : Option Obj) (p : Pc) : left (act truthy name M c p).2 ≤ left p - 1 := by
  cases p with
  | start => unfold act; simp only []; split <;> decide
  | load => unfold act; cases importString M name <;> simp [left]
  | setup _ _ => unfold act; simp only []; split <;> simp [left]
  | _ => simp [act, left]

/-- **C105** (no thread waits for another).  Every thread finishes with its third action at the latest, whatever the others do. -/
theorem C105_wait_free (truthy : Obj → Bool) (name : String) (s : Sys) (es : List (Nat × Modules)) (i : Nat) (hi : i < s.threads.length)
    (h : 3 ≤ (es.filter fun e => e.1 = i).length) :
    (∃ r, (s.run truthy name es).threads[i]? = some (.done r)) ∨ (s.run truthy name es).threads[i]? = some .set := by
  have hgen : ∀ (es : List (Nat × Modules)) (t : Sys) (p : Pc), t.threads[i]? = some p →
      ∃ q, (t.run truthy name es).threads[i]? = some q ∧ left q ≤ left p - (es.filter fun e => e.1 = i).length := by
    intro es
    induction es with
    | nil => exact fun t p hp => ⟨p, hp, Nat.le_refl _⟩
    | cons e es ih =>
      intro t p hp
      have hrun : t.run truthy name (e :: es) = (t.step truthy name e).run truthy name es := rfl
      rw [hrun]
      by_cases he : e.1 = i
      · have hst : (t.step truthy name e).threads[i]? = some (act truthy name e.2 t.cell p).2 := by
          unfold Sys.step
          rw [he, hp]
          simp only [List.getElem?_set_self' , hp]
          rfl
        obtain ⟨q, h1, h2⟩ := ih _ _ hst
        refine ⟨q, h1, ?_⟩
        rw [List.filter_cons_of_pos (by simp [he]), List.length_cons]
        have := left_act (truthy := truthy) (name := name) e.2 t.cell p
        omega
      · have hst : (t.step truthy name e).threads[i]? = some p := by
          unfold Sys.step
          cases hx : t.threads[e.1]? with
          | none => exact hp
          | some x => simp only []; rw [List.getElem?_set_ne he]; exact hp
        obtain ⟨q, h1, h2⟩ := ih _ _ hst
        refine ⟨q, h1, ?_⟩
        rw [List.filter_cons_of_neg (by simp [he])]
        exact h2
  obtain ⟨p, hp⟩ : ∃ p, s.threads[i]? = some p := ⟨_, List.getElem?_eq_getElem hi⟩
  obtain ⟨q, h1, h2⟩ := hgen es s p hp
  have hb : left p ≤ 3 := by cases p <;> simp [left]
  have h0 : left q = 0 := by omega
  cases q with
  | done r => exact Or.inl ⟨r, h1⟩
  | set => exact Or.inr h1
  | _ => cases h0

/-- **C105** (alone).  A thread which is not interrupted does what C99 says: the same answer, and the same reference afterwards. -/
theorem C105_alone (truthy : Obj → Bool) (name : String) (cell : Option Obj) (M : Modules) (ts : List Pc) (i : Nat) (hi : ts[i]? = some .start) :
    let r := Ref.use truthy M ⟨name, cell⟩
    let s := Sys.run truthy name ⟨cell, ts⟩ [(i, M), (i, M), (i, M)]
    s.threads[i]? = some (.done (some r.1)) ∧ s.cell = r.2.cls := by
  have step : ∀ (c : Option Obj) (ts : List Pc) (p : Pc), ts[i]? = some p → Sys.step truthy name ⟨c, ts⟩ (i, M) = ⟨(act truthy name M c p).1, ts.set i (act truthy name M c p).2⟩ := by
    intro c ts p h; unfold Sys.step; simp only [h]
  have got : ∀ (ts : List Pc) (p q : Pc), ts[i]? = some p → (ts.set i q)[i]? = some q := by
    intro ts p q h; rw [List.getElem?_set_self']; rw [h]; rfl
  simp only [Sys.run, List.foldl_cons, List.foldl_nil]
  rw [step _ _ _ hi]
  have h1 := got ts _ (act truthy name M cell .start).2 hi
  rw [step _ _ _ h1]
  have h2 := got _ _ (act truthy name M (act truthy name M cell .start).1 (act truthy name M cell .start).2).2 h1
  rw [step _ _ _ h2, got _ _ _ h2]
  unfold Ref.use Ref.resolved
  cases cell with
  | none =>
    simp only [act, resolved, Bool.false_eq_true, if_false]
    cases importString M name <;> simp [act]
  | some o =>
    cases ho : truthy o with
    | true => simp [act, resolved, ho]
    | false =>
      simp only [act, resolved, ho, Bool.false_eq_true, if_false]
      cases importString M name <;> simp [act]

/-! ## Examples -/

/-- An import system in which the module `a` (object 0) has `Model` bound to the given object. -/
def Samples.holding (o : Obj) : Modules := ⟨fun n => if n = ["a"] then .ok 0 else .missing, fun x n => if x = 0 ∧ n = "Model" then some o else none⟩

/-- **C105**: when the name is rebound between the imports of two threads they get different classes, and the reference changes after one of them has returned. -/
theorem C105_counterexample_rebound :
    Sys.run (fun _ => true) "a.Model" ⟨none, [.start, .start, .start]⟩
      [(0, Samples.holding 1), (1, Samples.holding 1), (0, Samples.holding 1), (1, Samples.holding 2), (0, Samples.holding 2), (2, Samples.holding 2), (1, Samples.holding 2), (2, Samples.holding 2)] =
    ⟨some 2, [.done (some (.obj 1)), .done (some (.obj 2)), .done (some (.obj 2))]⟩ := by decide +kernel

/-! ## The hypotheses are met -/

example := C105_provenance (fun _ => true) "a.Model" ⟨none, [.start, .start]⟩ (by simp [Pc.Fresh]) [(0, Samples.holding 1), (1, Samples.holding 1), (0, Samples.holding 1), (0, Samples.holding 1)] 0
  (some (.obj 1)) (by decide +kernel)
example := C105_agree (fun _ => true) "a.Model" ⟨none, [.start, .start]⟩ (by simp [Pc.Fresh]) [(0, Samples.holding 1), (1, Samples.holding 1), (0, Samples.holding 1), (0, Samples.holding 1)] 1
  (by intro e he; simp only [List.mem_cons, List.not_mem_nil, or_false] at he; rcases he with rfl | rfl | rfl | rfl <;> decide +kernel) (by intro x h; cases h) (by intro x h; simp at h)
example := C105_settled (fun _ => true) "a.Model" ⟨some 1, [.start, .again, .setup "a.Model" 5]⟩ 1 rfl rfl (by simp [Pc.Idle]) [(0, Samples.holding 2), (2, Samples.holding 2), (0, Samples.holding 2)]
example := C105_wait_free (fun _ => true) "a.Model" ⟨none, [.start, .start]⟩ [(0, Samples.holding 1), (1, Samples.holding 1), (0, Samples.holding 1), (0, Samples.holding 1)] 0 (by decide) (by decide)
example := C105_alone (fun _ => true) "a.Model" none (Samples.holding 1) [.start, .store 4] 0 rfl

end Verif.ImportString
