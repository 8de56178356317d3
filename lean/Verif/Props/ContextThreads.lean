import Verif.Lib.ContextThreads

/-! # C106: one context in several concurrent calls -/
namespace Verif.Lib

/-! ## Specification -/

/-- The call `p` has not begun; its arguments are `a`. -/
def Begins (p : Caller) (a : Opts) : Prop := p = .test a ∧ a.Nodup

/-- Call `i` found `v` (or nothing) when it read option `k`. -/
def Finds (s : Shared) (i : Nat) (k : String) (v : Option Val) : Prop := ∃ log, s.calls[i]? = some (.run log) ∧ (k, v) ∈ log

/-! ## Lemmas -/

/-- An invariant of schedules in which option values have the property `P` (`P k v`: the value `v`, or nothing, may be found for `k`). -/
structure Keeps (A : Opts → Prop) (C W : Opts → Prop) (P : String → Option Val → Prop) (s : Shared) : Prop where
  ctx : C s.ctx
  begins : ∀ (i : Nat) (a : Opts), s.calls[i]? = some (.test a) → A a
  merges : ∀ (i : Nat) (a : Opts), s.calls[i]? = some (.merge a) → A a
  writes : ∀ (i : Nat) (w : Opts), s.calls[i]? = some (.write w) → W w
  runs : ∀ (i : Nat) (log : List (String × Option Val)), s.calls[i]? = some (.run log) → Dict.has s.ctx "initialized" = true ∧ ∀ kv ∈ log, P kv.1 kv.2

theorem call_set {ts : List Caller} {i j : Nat} {q r : Caller} (h : (ts.set i q)[j]? = some r) : r = q ∨ ts[j]? = some r := by
  rw [List.getElem?_set] at h
  split at h
  · split at h
    · exact Or.inl (Option.some.inj h).symm
    · cases h
  · exact Or.inr h

theorem has_update {d e : Opts} {k : String} (h : Dict.has d k = true ∨ Dict.has e k = true) : Dict.has (Dict.update d e) k = true := by
  rw [Dict.has_iff, Dict.mem_keys_update]
  rcases h with h | h
  · exact Or.inl ((Dict.has_iff _ _).1 h)
  · exact Or.inr ((Dict.has_iff _ _).1 h)

theorem Keeps.step {A C W : Opts → Prop} {P : String → Option Val → Prop} (hm : ∀ a c, A a → C c → W (Dict.update a c)) (hw : ∀ c w, C c → W w → C (Dict.update c w))
    (hA : ∀ w, W w → Dict.has w "initialized" = true) (hr : ∀ c k, C c → Dict.has c "initialized" = true → P k (Dict.get? c k))
    {s : Shared} (h : Keeps A C W P s) (e : Nat × String) : Keeps A C W P (s.step e) := by
  unfold Shared.step
  cases hp : s.calls[e.1]? with
  | none => exact h
  | some p =>
    have build : ∀ {c : Opts} {q : Caller}, callerAct e.2 s.ctx p = (c, q) → C c → (Dict.has s.ctx "initialized" = true → Dict.has c "initialized" = true) →
        (∀ a, q = .test a → A a) → (∀ a, q = .merge a → A a) → (∀ w, q = .write w → W w) → (∀ log, q = .run log → Dict.has c "initialized" = true ∧ ∀ kv ∈ log, P kv.1 kv.2) →
        Keeps A C W P ⟨(callerAct e.2 s.ctx p).1, s.calls.set e.1 (callerAct e.2 s.ctx p).2⟩ := by
      intro c q ha h1 hini h2 h3 h4 h5
      rw [ha]
      refine ⟨h1, fun i a hi => ?_, fun i a hi => ?_, fun i w hi => ?_, fun i log hi => ?_⟩
      · rcases call_set hi with hq | hq
        · exact h2 a hq.symm
        · exact h.begins i a hq
      · rcases call_set hi with hq | hq
        · exact h3 a hq.symm
        · exact h.merges i a hq
      · rcases call_set hi with hq | hq
        · exact h4 w hq.symm
        · exact h.writes i w hq
      · rcases call_set hi with hq | hq
        · exact h5 log hq.symm
        · exact ⟨hini (h.runs i log hq).1, (h.runs i log hq).2⟩
    cases p with
    | test a =>
      refine build rfl h.ctx id ?_ ?_ ?_ ?_
      · intro a' hq; split at hq <;> cases hq
      · intro a' hq
        split at hq <;> cases hq
        exact h.begins _ _ hp
      · intro w hq; split at hq <;> cases hq
      · intro log hq
        split at hq <;> cases hq
        rename_i hini
        exact ⟨hini, by intro kv hkv; cases hkv⟩
    | merge a =>
      refine build rfl h.ctx id (by intro a hq; cases hq) (by intro a hq; cases hq) ?_ (by intro l hq; cases hq)
      intro w hq
      cases hq
      exact hm _ _ (h.merges _ _ hp) h.ctx
    | write w =>
      have hW := h.writes _ _ hp
      refine build rfl (hw _ _ h.ctx hW) (fun _ => has_update (Or.inr (hA w hW))) (by intro a hq; cases hq) (by intro a hq; cases hq) (by intro w hq; cases hq) ?_
      intro log hq
      cases hq
      exact ⟨has_update (Or.inr (hA w hW)), by intro kv hkv; cases hkv⟩
    | run log =>
      have hl := h.runs _ _ hp
      refine build rfl h.ctx id (by intro a hq; cases hq) (by intro a hq; cases hq) (by intro w hq; cases hq) ?_
      intro log' hq
      cases hq
      refine ⟨hl.1, fun kv hkv => ?_⟩
      rcases List.mem_cons.1 hkv with rfl | hkv
      · exact hr _ _ h.ctx hl.1
      · exact hl.2 kv hkv

theorem Keeps.run {A C W : Opts → Prop} {P : String → Option Val → Prop} (hm : ∀ a c, A a → C c → W (Dict.update a c)) (hw : ∀ c w, C c → W w → C (Dict.update c w))
    (hA : ∀ w, W w → Dict.has w "initialized" = true) (hr : ∀ c k, C c → Dict.has c "initialized" = true → P k (Dict.get? c k))
    {s : Shared} (h : Keeps A C W P s) (es : List (Nat × String)) : Keeps A C W P (s.run es) := by
  induction es generalizing s with
  | nil => exact h
  | cons e es ih => exact ih (h.step hm hw hA hr e)

theorem keeps_begin {A C W : Opts → Prop} {P : String → Option Val → Prop} {s : Shared} (hc : C s.ctx) (hb : ∀ p ∈ s.calls, ∃ a, p = .test a ∧ A a) : Keeps A C W P s := by
  have no : ∀ {i : Nat} {p : Caller}, s.calls[i]? = some p → ∃ a, p = .test a ∧ A a := fun h => hb _ (List.mem_of_getElem? h)
  refine ⟨hc, fun i a h => ?_, fun i a h => ?_, fun i a h => ?_, fun i l h => ?_⟩
  · obtain ⟨b, h1, h2⟩ := no h; cases h1; exact h2
  · obtain ⟨b, h1, _⟩ := no h; cases h1
  · obtain ⟨b, h1, _⟩ := no h; cases h1
  · obtain ⟨b, h1, _⟩ := no h; cases h1

theorem or_none' {α : Type} (a b : Option α) : a.or b = none ↔ a = none ∧ b = none := by cases a <;> simp

/-! ## The theorems -/

/-- **C106** (same arguments).  If all calls that share the context have the same arguments, then in every schedule every call finds every option as in a call of its own (C70): the value the caller had put into
the context, else, if the context was not used before, the argument. -/
theorem C106_same_arguments (s : Shared) (args : Opts) (ha : args.Nodup) (hi : Dict.has args "initialized" = true) (hc : s.ctx.Nodup) (hb : ∀ p ∈ s.calls, p = .test args)
    (es : List (Nat × String)) (i : Nat) (k : String) (v : Option Val) (h : Finds (s.run es) i k v) :
    v = if (Dict.get? s.ctx "initialized").isSome then Dict.get? s.ctx k else (Dict.get? s.ctx k).or (Dict.get? args k) := by
  obtain ⟨log, h1, h2⟩ := h
  cases hini : Dict.has s.ctx "initialized" with
  | true =>
    have hini' : (Dict.get? s.ctx "initialized").isSome = true := hini
    rw [if_pos hini']
    -- nothing is ever merged or written
    have inv : ∀ (es : List (Nat × String)) (t : Shared), t.ctx = s.ctx → (∀ p ∈ t.calls, p = .test args ∨ ∃ log, p = .run log ∧ ∀ kv ∈ log, kv.2 = Dict.get? s.ctx kv.1) →
        ∀ p ∈ (t.run es).calls, p = .test args ∨ ∃ log, p = .run log ∧ ∀ kv ∈ log, kv.2 = Dict.get? s.ctx kv.1 := by
      intro es
      induction es with
      | nil => exact fun t _ h => h
      | cons e es ih =>
        intro t ht hall
        refine ih (t.step e) ?_ ?_
        · unfold Shared.step
          cases hp : t.calls[e.1]? with
          | none => exact ht
          | some p =>
            rcases hall p (List.mem_of_getElem? hp) with rfl | ⟨log, rfl, _⟩
            · exact ht
            · exact ht
        · unfold Shared.step
          cases hp : t.calls[e.1]? with
          | none => exact hall
          | some p =>
            simp only []
            intro q hq
            rcases List.mem_or_eq_of_mem_set hq with hq | rfl
            · exact hall q hq
            · rcases hall p (List.mem_of_getElem? hp) with rfl | ⟨log, rfl, hl⟩
              · right
                refine ⟨[], ?_, by intro kv hkv; cases hkv⟩
                simp only [callerAct, ht, hini, if_true]
              · right
                refine ⟨_, rfl, fun kv hkv => ?_⟩
                rcases List.mem_cons.1 hkv with rfl | hkv
                · rw [ht]
                · exact hl kv hkv
    rcases inv es s rfl (fun p hp => Or.inl (hb p hp)) _ (List.mem_of_getElem? h1) with h3 | ⟨log', h3, h4⟩
    · cases h3
    · cases h3; exact h4 _ h2
  | false =>
    have hini' : ¬ (Dict.get? s.ctx "initialized").isSome = true := by
      intro h
      have : Dict.has s.ctx "initialized" = true := h
      rw [hini] at this; cases this
    rw [if_neg hini']
    have hsnone : Dict.get? s.ctx "initialized" = none := by
      cases hg : Dict.get? s.ctx "initialized" with
      | none => rfl
      | some w => exact absurd (by rw [hg]; rfl) hini'
    let want : String → Option Val := fun k => (Dict.get? s.ctx k).or (Dict.get? args k)
    let C : Opts → Prop := fun c => c.Nodup ∧ (c = s.ctx ∨ ∀ k, Dict.get? c k = want k)
    let W : Opts → Prop := fun w => w.Nodup ∧ ∀ k, Dict.get? w k = want k
    have hwant : ∀ w : Opts, (∀ k, Dict.get? w k = want k) → Dict.has w "initialized" = true := by
      intro w hw
      show (Dict.get? w "initialized").isSome = true
      rw [hw]
      show ((Dict.get? s.ctx "initialized").or (Dict.get? args "initialized")).isSome = true
      rw [hsnone]; exact hi
    have key : Keeps (fun a => a = args) C W (fun k v => v = want k) (s.run es) := by
      refine Keeps.run (s := s) ?_ ?_ ?_ ?_ (keeps_begin ⟨hc, Or.inl rfl⟩ ?_) es
      · rintro a c rfl ⟨hcn, h⟩
        refine ⟨Dict.nodup_update ha c, fun k => ?_⟩
        rw [Dict.get?_update _ _ hcn]
        rcases h with rfl | h
        · rfl
        · rw [h]
          show ((Dict.get? s.ctx k).or (Dict.get? a k)).or (Dict.get? a k) = (Dict.get? s.ctx k).or (Dict.get? a k)
          cases Dict.get? s.ctx k <;> cases Dict.get? a k <;> rfl
      · rintro c w ⟨hcn, h⟩ ⟨hwn, hw⟩
        refine ⟨Dict.nodup_update hcn w, Or.inr fun k => ?_⟩
        rw [Dict.get?_update _ _ hwn, hw]
        rcases h with rfl | h
        · show ((Dict.get? s.ctx k).or (Dict.get? args k)).or (Dict.get? s.ctx k) = (Dict.get? s.ctx k).or (Dict.get? args k)
          cases Dict.get? s.ctx k <;> cases Dict.get? args k <;> rfl
        · rw [h]
          cases want k <;> rfl
      · rintro w ⟨_, hw⟩; exact hwant w hw
      · rintro c k ⟨_, rfl | h⟩ hh
        · rw [hini] at hh; cases hh
        · exact h k
      · exact fun p hp => ⟨args, hb p hp, rfl⟩
    exact (key.runs i log h1).2 _ h2

/-- **C106** (options given in the context win).  Whatever arguments the calls have, in every schedule every call finds an option which the caller had put into the context before. -/
theorem C106_given_options (s : Shared) (hc : s.ctx.Nodup) (hb : ∀ p ∈ s.calls, ∃ a, Begins p a) (hi : ∀ p ∈ s.calls, ∀ a, p = .test a → Dict.has a "initialized" = true)
    (es : List (Nat × String)) (k : String) (w : Val) (hk : Dict.get? s.ctx k = some w) :
    Dict.get? (s.run es).ctx k = some w ∧ ∀ i v, Finds (s.run es) i k v → v = some w := by
  have key : Keeps (fun a => a.Nodup ∧ Dict.has a "initialized" = true) (fun c => c.Nodup ∧ Dict.get? c k = some w)
      (fun x => x.Nodup ∧ Dict.get? x k = some w ∧ Dict.has x "initialized" = true) (fun k' v => k' = k → v = some w) (s.run es) := by
    refine Keeps.run (s := s) ?_ ?_ ?_ ?_ (keeps_begin ⟨hc, hk⟩ ?_) es
    · rintro a c ⟨ha, hai⟩ ⟨hcn, h⟩
      refine ⟨Dict.nodup_update ha c, ?_, has_update (Or.inl hai)⟩
      rw [Dict.get?_update _ _ hcn, h]; rfl
    · rintro c x ⟨hcn, h⟩ ⟨hxn, hx, _⟩
      refine ⟨Dict.nodup_update hcn x, ?_⟩
      rw [Dict.get?_update _ _ hxn, hx]; rfl
    · rintro x ⟨_, _, h⟩; exact h
    · rintro c k' ⟨_, h⟩ _ rfl; exact h
    · intro p hp
      obtain ⟨a, h1, h2⟩ := hb p hp
      exact ⟨a, h1, h2, hi p hp a h1⟩
  refine ⟨key.ctx.2, ?_⟩
  rintro i v ⟨log, h1, h2⟩
  exact (key.runs i log h1).2 _ h2 rfl

/-- **C106** (no foreign values, none missing).  Whatever arguments the calls have, in every schedule every call finds for an option the value from the context or the argument of one of the calls; an option which
all calls have an argument for is always found. -/
theorem C106_some_call (s : Shared) (hc : s.ctx.Nodup) (hb : ∀ p ∈ s.calls, ∃ a, Begins p a) (hi : ∀ p ∈ s.calls, ∀ a, p = .test a → Dict.has a "initialized" = true)
    (hn : Dict.get? s.ctx "initialized" = none) (es : List (Nat × String)) (i : Nat) (k : String) (v : Option Val) (h : Finds (s.run es) i k v) :
    (∀ w, v = some w → Dict.get? s.ctx k = some w ∨ ∃ a, Caller.test a ∈ s.calls ∧ Dict.get? a k = some w) ∧
    ((∀ a, Caller.test a ∈ s.calls → (Dict.get? a k).isSome = true) → v ≠ none) := by
  let src : Val → Prop := fun w => Dict.get? s.ctx k = some w ∨ ∃ a, Caller.test a ∈ s.calls ∧ Dict.get? a k = some w
  let all : Prop := ∀ a, Caller.test a ∈ s.calls → (Dict.get? a k).isSome = true
  have key : Keeps (fun a => Caller.test a ∈ s.calls ∧ a.Nodup ∧ Dict.has a "initialized" = true)
      (fun c => c.Nodup ∧ (∀ w, Dict.get? c k = some w → src w) ∧ (all → Dict.has c "initialized" = true → Dict.get? c k ≠ none))
      (fun x => x.Nodup ∧ (∀ w, Dict.get? x k = some w → src w) ∧ (all → Dict.get? x k ≠ none) ∧ Dict.has x "initialized" = true)
      (fun k' v => k' = k → (∀ w, v = some w → src w) ∧ (all → v ≠ none)) (s.run es) := by
    refine Keeps.run (s := s) ?_ ?_ ?_ ?_ (keeps_begin ⟨hc, fun w hw => Or.inl hw, fun _ hh => ?_⟩ ?_) es
    · rintro a c ⟨hm, ha, hai⟩ ⟨hcn, h, _⟩
      refine ⟨Dict.nodup_update ha c, fun w hw => ?_, fun hall hno => ?_, has_update (Or.inl hai)⟩
      · rw [Dict.get?_update _ _ hcn] at hw
        cases hg : Dict.get? c k with
        | some x => rw [hg] at hw; cases hw; exact h _ hg
        | none => rw [hg] at hw; exact Or.inr ⟨a, hm, hw⟩
      · rw [Dict.get?_update _ _ hcn, or_none'] at hno
        have := hall a hm
        rw [hno.2] at this; cases this
    · rintro c x ⟨hcn, h, _⟩ ⟨hxn, hx, hx2, _⟩
      refine ⟨Dict.nodup_update hcn x, fun w hw => ?_, fun hall _ hno => ?_⟩
      · rw [Dict.get?_update _ _ hxn] at hw
        cases hg : Dict.get? x k with
        | some y => rw [hg] at hw; cases hw; exact hx _ hg
        | none => rw [hg] at hw; exact h w hw
      · rw [Dict.get?_update _ _ hxn, or_none'] at hno
        exact hx2 hall hno.1
    · rintro x ⟨_, _, _, h⟩; exact h
    · rintro c k' ⟨_, h, h2⟩ hini rfl
      exact ⟨h, fun hall => h2 hall hini⟩
    · intro p hp
      obtain ⟨a, h1, h2⟩ := hb p hp
      exact ⟨a, h1, h1 ▸ hp, h2, hi p hp a h1⟩
    · rename_i hh
      intro _
      have : (Dict.get? s.ctx "initialized").isSome = true := by assumption
      rw [hn] at this; cases this
  obtain ⟨log, h1, h2⟩ := h
  exact (key.runs i log h1).2 _ h2 rfl

/-- **C106** (settled).  Once the context is initialised and no call is between its test and its write, the context does not change any more, and every option read from then on has the value it has now. -/
theorem C106_settled (s : Shared) (hi : Dict.has s.ctx "initialized" = true) (hb : ∀ p ∈ s.calls, (∃ a, p = .test a) ∨ ∃ log, p = .run log) (es : List (Nat × String)) :
    (s.run es).ctx = s.ctx ∧ ∀ i k v, Finds (s.run es) i k v → v = Dict.get? s.ctx k ∨ Finds s i k v := by
  have inv : ∀ (es : List (Nat × String)) (t : Shared), t.ctx = s.ctx → (∀ p ∈ t.calls, (∃ a, p = .test a) ∨ ∃ log, p = .run log) →
      (∀ i k v, Finds t i k v → v = Dict.get? s.ctx k ∨ Finds s i k v) →
      (t.run es).ctx = s.ctx ∧ ∀ i k v, Finds (t.run es) i k v → v = Dict.get? s.ctx k ∨ Finds s i k v := by
    intro es
    induction es with
    | nil => exact fun t h1 _ h3 => ⟨h1, h3⟩
    | cons e es ih =>
      intro t ht hall hf
      refine ih (t.step e) ?_ ?_ ?_
      · unfold Shared.step
        cases hp : t.calls[e.1]? with
        | none => exact ht
        | some p =>
          rcases hall p (List.mem_of_getElem? hp) with ⟨a, rfl⟩ | ⟨log, rfl⟩
          · exact ht
          · exact ht
      · unfold Shared.step
        cases hp : t.calls[e.1]? with
        | none => exact hall
        | some p =>
          simp only []
          intro q hq
          rcases List.mem_or_eq_of_mem_set hq with hq | rfl
          · exact hall q hq
          · rcases hall p (List.mem_of_getElem? hp) with ⟨a, rfl⟩ | ⟨log, rfl⟩
            · right
              exact ⟨[], by simp only [callerAct, ht, hi, if_true]⟩
            · exact Or.inr ⟨_, rfl⟩
      · unfold Shared.step
        cases hp : t.calls[e.1]? with
        | none => exact hf
        | some p =>
          rintro i k v ⟨log, h1, h2⟩
          simp only [] at h1
          rw [List.getElem?_set] at h1
          split at h1
          · rename_i hij
            split at h1
            · rcases hall p (List.mem_of_getElem? hp) with ⟨a, rfl⟩ | ⟨log', rfl⟩
              · simp only [callerAct, ht, hi, if_true] at h1
                cases h1; cases h2
              · simp only [callerAct] at h1
                cases h1
                rcases List.mem_cons.1 h2 with h2 | h2
                · cases h2; rw [ht]; exact Or.inl rfl
                · exact hf i k v ⟨log', by rw [← hij]; exact hp, h2⟩
            · cases h1
          · exact hf i k v ⟨log, h1, h2⟩
  exact inv es s rfl hb fun i k v h => Or.inr h

/-- **C106** (alone).  A call which is not interrupted makes the context what C70 says. -/
theorem C106_alone (c args : Opts) (ts : List Caller) (i : Nat) (hi : ts[i]? = some (.test args)) (k : String) :
    ∃ es, (∀ e ∈ es, e = (i, k)) ∧ (Shared.run ⟨c, ts⟩ es).calls[i]? = some (.run []) ∧
      some (Shared.run ⟨c, ts⟩ es).ctx = (enter [c] (.object 0) args).1[0]? := by
  have step : ∀ (c : Opts) (ts : List Caller) (p : Caller), ts[i]? = some p → Shared.step ⟨c, ts⟩ (i, k) = ⟨(callerAct k c p).1, ts.set i (callerAct k c p).2⟩ := by
    intro c ts p h; unfold Shared.step; simp only [h]
  have got : ∀ (ts : List Caller) (p q : Caller), ts[i]? = some p → (ts.set i q)[i]? = some q := by
    intro ts p q h; rw [List.getElem?_set_self']; rw [h]; rfl
  cases hc : Dict.has c "initialized" with
  | true =>
    refine ⟨[(i, k)], by simp, ?_⟩
    simp only [Shared.run, List.foldl_cons, List.foldl_nil]
    rw [step _ _ _ hi]
    refine ⟨?_, ?_⟩
    · simp only [callerAct, hc, if_true]; exact got _ _ _ hi
    · simp [callerAct, enter, make, hc]
  | false =>
    refine ⟨[(i, k), (i, k), (i, k)], by simp, ?_⟩
    simp only [Shared.run, List.foldl_cons, List.foldl_nil]
    rw [step _ _ _ hi]
    simp only [callerAct, hc, Bool.false_eq_true, if_false]
    rw [step _ _ _ (got _ _ (.merge args) hi)]
    simp only [callerAct]
    rw [step _ _ _ (got _ _ (.write (Dict.update args c)) (got _ _ (.merge args) hi))]
    simp only [callerAct]
    refine ⟨got _ _ _ (got _ _ _ (got _ _ _ hi)), ?_⟩
    simp [enter, make, hc, setDefaults]

/-! ## Examples -/

/-- The arguments of a call. -/
def Samples.callArgs (strict : Bool) : Opts := [("initialized", .bool true), ("strict", .bool strict), ("partial", .bool true)]

/-- **C106**: two calls with different arguments.  The second one tests the context before the first has written its options, and overwrites them while the first is running: the first call reads two
different values of one option. -/
theorem C106_counterexample_mixed :
    (Shared.run ⟨[], [.test (Samples.callArgs true), .test (Samples.callArgs false)]⟩
      [(0, ""), (1, ""), (0, ""), (1, ""), (0, ""), (0, "strict"), (1, ""), (0, "strict")]).calls[0]? =
    some (.run [("strict", some (.bool false)), ("strict", some (.bool true))]) := by rfl

/-! ## The hypotheses are met -/

/-- Two calls with the same arguments, interleaved. -/
example : Finds (Shared.run ⟨[("partial", .bool false)], [.test (Samples.callArgs true), .test (Samples.callArgs true)]⟩
    [(0, ""), (1, ""), (0, ""), (1, ""), (0, ""), (0, "strict"), (1, ""), (0, "strict"), (1, "partial")]) 1 "partial" (some (.bool false)) :=
  ⟨_, rfl, by simp; rfl⟩
example := C106_same_arguments ⟨[("partial", .bool false)], [.test (Samples.callArgs true), .test (Samples.callArgs true)]⟩ (Samples.callArgs true) (by simp [Samples.callArgs, Dict.Nodup, Dict.keys]) rfl
  (by simp [Dict.Nodup, Dict.keys]) (by simp) [(0, ""), (1, ""), (0, ""), (1, ""), (0, ""), (0, "strict"), (1, ""), (0, "strict"), (1, "partial")] 1 "partial" (some (.bool false)) ⟨_, rfl, by simp; rfl⟩
example := C106_given_options ⟨[("partial", .bool false)], [.test (Samples.callArgs true), .test (Samples.callArgs false)]⟩ (by simp [Dict.Nodup, Dict.keys])
  (by intro p hp; simp at hp; rcases hp with rfl | rfl <;> exact ⟨_, rfl, by simp [Samples.callArgs, Dict.Nodup, Dict.keys]⟩)
  (by intro p hp a ha; simp at hp; rcases hp with rfl | rfl <;> cases ha <;> rfl) [(0, ""), (1, ""), (0, ""), (1, ""), (0, ""), (1, ""), (0, "partial")] "partial" (.bool false) rfl
example := C106_some_call ⟨[], [.test (Samples.callArgs true), .test (Samples.callArgs false)]⟩ (by simp [Dict.Nodup, Dict.keys])
  (by intro p hp; simp at hp; rcases hp with rfl | rfl <;> exact ⟨_, rfl, by simp [Samples.callArgs, Dict.Nodup, Dict.keys]⟩)
  (by intro p hp a ha; simp at hp; rcases hp with rfl | rfl <;> cases ha <;> rfl) rfl
  [(0, ""), (1, ""), (0, ""), (1, ""), (0, ""), (0, "strict"), (1, ""), (0, "strict")] 0 "strict" (some (.bool true)) ⟨_, rfl, by simp; exact Or.inr rfl⟩
example := C106_settled ⟨Samples.callArgs true, [.test (Samples.callArgs false), .run []]⟩ rfl (by simp) [(0, ""), (1, "strict"), (0, "strict")]
example := C106_alone [] (Samples.callArgs true) [.test (Samples.callArgs true), .test (Samples.callArgs false)] 0 rfl ""

end Verif.Lib
