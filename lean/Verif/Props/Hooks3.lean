import Verif.Props.Hooks2

/-!
# C102: when user code is called — theorems about whole runs
-/
namespace Verif

/-- A run and the same run watched. -/
theorem runH_watch (h : Hooks σ) (env : Env) (n : Nat) (k : Start) (ctx : Ctx) (c : ClassDef) (mu : Mut) (raw : Data) :
    Watch (Tame h env ∧ c.settable = []) False False [] (fun st => st = .setters ∨ st = .fields ∨ st = .methods) never (runH h env n k ctx c mu raw) (runH h.watched env n k ctx c mu raw) := by
  have hr := fieldConvH_watch (h := h) (env := env) (ns := Tame h env ∧ c.settable = []) (fun t => t.1.solid) (fun t => t.1.settable) n
  cases k with
  | convert => exact (importLoopH_watch (fun t => t.1.solid) hr [] ctx c (fun t => t.2) mu raw).weaken (fun st h => h.elim .inl fun h => .inr (.inl h)) (fun _ => ⟨id, fun _ => id⟩) id
  | validate => exact validateFnH_watch (fun t => t.1.solid) hr [] ctx c (fun t => t.2) mu raw

theorem callsH_fine (h : Hooks σ) (env : Env) (n : Nat) (k : Start) (ctx : Ctx) (c : ClassDef) (mu : Mut) (raw : Data) (s : σ) :
    runH h.watched env n k ctx c mu raw (s, []) = ((runH h env n k ctx c mu raw s).1, ((runH h env n k ctx c mu raw s).2, callsH h env n k ctx c mu raw s)) ∧
    Fine (Tame h env ∧ c.settable = []) False False [] (fun st => st = .setters ∨ st = .fields ∨ st = .methods) never (runH h env n k ctx c mu raw s).1 (callsH h env n k ctx c mu raw s) := by
  obtain ⟨evs, h1, h2⟩ := runH_watch h env n k ctx c mu raw s
  have h3 := h1 []
  have h4 : callsH h env n k ctx c mu raw s = evs := by
    unfold callsH
    rw [h3]
    rfl
  rw [h4]
  exact ⟨h3, h2⟩

/-- **C102** (user code that only computes).  If what user code returns or raises depends on its arguments only, then whatever else it does, the run ends exactly as the run of the pure engine, on which
the other properties are proved. -/
theorem C102_steady {h : Hooks σ} (hf : h.Steady) (env : Env) (n : Nat) (ctx : Ctx) (c : ClassDef) (mu : Mut) (raw : Data) (s : σ) :
    (runH h env n .convert ctx c mu raw s).1 = runImport env n ctx c mu raw ∧ (runH h env n .validate ctx c mu raw s).1 = runValidate env n ctx c mu raw :=
  ⟨importLoopH_res hf (fieldConvH_res hf n) [] ctx c mu raw s, validateFnH_res hf (fieldConvH_res hf n) [] ctx c mu raw s⟩

/-- **C102** (watching).  Recording the calls changes neither the result nor the effects. -/
theorem C102_watching (h : Hooks σ) (env : Env) (n : Nat) (k : Start) (ctx : Ctx) (c : ClassDef) (mu : Mut) (raw : Data) (s : σ) :
    (runH h.watched env n k ctx c mu raw (s, [])).1 = (runH h env n k ctx c mu raw s).1 ∧ (runH h.watched env n k ctx c mu raw (s, [])).2.1 = (runH h env n k ctx c mu raw s).2 := by
  rw [(callsH_fine h env n k ctx c mu raw s).1]
  exact ⟨rfl, rfl⟩

/-- **C102** (order).  Whatever user code does, the calls are made in the order of their places. -/
theorem C102_order (h : Hooks σ) (env : Env) (n : Nat) (k : Start) (ctx : Ctx) (c : ClassDef) (mu : Mut) (raw : Data) (s : σ) :
    (callsH h env n k ctx c mu raw s).Pairwise fun a b => Before a.place b.place := (callsH_fine h env n k ctx c mu raw s).2.order

/-- **C102** (once).  No call is made twice in a run. -/
theorem C102_once (h : Hooks σ) (env : Env) (n : Nat) (k : Start) (ctx : Ctx) (c : ClassDef) (mu : Mut) (raw : Data) (s : σ) :
    ((callsH h env n k ctx c mu raw s).map (·.place)).Nodup := by
  unfold List.Nodup
  rw [List.pairwise_map]
  refine (C102_order h env n k ctx c mu raw s).imp ?_
  intro a b hab he
  rw [he] at hab
  exact Before.irrefl _ hab

/-- **C102** (foreign exceptions).  If user code raises an exception that is not one of schematics' own (and not an `AttributeError` in a program with setters), that call is the last one, and the caller gets
that exception. -/
theorem C102_crash_ends (h : Hooks σ) (env : Env) (n : Nat) (k : Start) (ctx : Ctx) (c : ClassDef) (mu : Mut) (raw : Data) (s : σ) (e : Call) (x : Exc)
    (he : e ∈ callsH h env n k ctx c mu raw s) (hx : e.raised = some x) (hc : x.caught = false) (ha : x ≠ .other "AttributeError" ∨ (Tame h env ∧ c.settable = [])) :
    (runH h env n k ctx c mu raw s).1 = .error x ∧ ∃ l, callsH h env n k ctx c mu raw s = l ++ [e] :=
  (callsH_fine h env n k ctx c mu raw s).2.crash e he x hx hc ha.symm

/-- **C102** (errors are reported).  In a program without setters whose user code does not raise `DataError({})`: if any call raised anything, the run raises. -/
theorem C102_errors_reported (h : Hooks σ) (env : Env) (n : Nat) (k : Start) (ctx : Ctx) (c : ClassDef) (mu : Mut) (raw : Data) (s : σ) (ht : Tame h env) (hc : c.settable = []) (e : Call)
    (he : e ∈ callsH h env n k ctx c mu raw s) (hx : e.raised ≠ none) : ∃ x, (runH h env n k ctx c mu raw s).1 = .error x := by
  have hb := (callsH_fine h env n k ctx c mu raw s).2.errs ⟨ht, hc⟩ (.inr ⟨e, he, hx⟩)
  cases hr : (runH h env n k ctx c mu raw s).1 with
  | ok d => rw [hr] at hb; exact hb.elim
  | error x => exact ⟨x, rfl⟩

/-- **C102** (no validators after a failed conversion).  In such a program, if any call made for the conversion of a value raised, no validator of that value is called. -/
theorem C102_no_validators_after_error (h : Hooks σ) (env : Env) (n : Nat) (k : Start) (ctx : Ctx) (c : ClassDef) (mu : Mut) (raw : Data) (s : σ) (ht : Tame h env) (hc : c.settable = [])
    (p : Place) (e : Call) (he : e ∈ callsH h env n k ctx c mu raw s) (t : List Step) (hp : e.place = p ++ .conv :: t) (hx : e.raised ≠ none) :
    ∀ e' ∈ callsH h env n k ctx c mu raw s, ∀ j, e'.place ≠ p ++ [.checks, .at j] :=
  fun e' he' j => (callsH_fine h env n k ctx c mu raw s).2.quiet ⟨ht, hc⟩ e he e' he' p t j hp hx

/-! ## Every value -/

/-- The calls made at a place or inside it. -/
def under (q : Place) (l : List Call) : List Call := l.filter fun e => q.isPrefixOf e.place

/-- The validators of a value, one after the other; after an exception that is not a `ValidationError` no more. -/
def checkCalls (h : Hooks σ) (p : Place) (app v : Val) : Nat → List Validator → σ → List Call
  | _, [], _ => []
  | j, f :: fs, s =>
    let r := h.check (p ++ [.checks, .at j]) f app v s
    ⟨p ++ [.checks, .at j], .check f app v, r.1.exc⟩ ::
      match r.1 with
      | .ok _ => checkCalls h p app v (j + 1) fs r.2
      | .error (.field .valid _) => checkCalls h p app v (j + 1) fs r.2
      | .error _ => []

/-- The calls for one value of a scalar type: conversion, then the validators on the converted value; when importing, the conversion only; without `convert`, the validators on the value as it is; an
overridden `validate` replaces both. -/
def valueCalls (h : Hooks σ) (p : Place) (ctx : Ctx) (f : Field) (l : Leaf) (v : Val) (s : σ) : List Call :=
  let r := h.native (p ++ [.conv]) l ctx.app v s
  let conv : Call := ⟨p ++ [.conv], .native l ctx.app v, r.1.exc⟩
  match ctx.conv, f.ty.override with
  | .imp, _ => [conv]
  | .val, some g => [⟨p ++ [.conv], .override g ctx.convert ctx.app v, (h.override (p ++ [.conv]) g ctx.convert ctx.app v s).1.exc⟩]
  | .val, none =>
    if ctx.convert then
      conv :: match r.1 with
        | .ok w => checkCalls h p ctx.app w 0 f.allValidators r.2
        | .error _ => []
    else checkCalls h p ctx.app v 0 f.allValidators s

theorem under_append (q : Place) (l l' : List Call) : under q (l ++ l') = under q l ++ under q l' := by unfold under; rw [List.filter_append]

theorem under_other {p : Place} {P : Step → Prop} {st : Step} {t : List Step} {l : List Call} (hw : ∀ e ∈ l, ∃ st t, e.place = p ++ st :: t ∧ P st) (hst : ¬ P st) : under (p ++ st :: t) l = [] := by
  unfold under
  rw [List.filter_eq_nil_iff]
  intro e he hpre
  obtain ⟨st', t', h1, h2⟩ := hw e he
  rw [List.isPrefixOf_iff_prefix, h1] at hpre
  rw [List.prefix_append_right_inj, List.cons_prefix_cons] at hpre
  rw [hpre.1] at hst
  exact hst h2

theorem under_all {p : Place} {P : Step → Prop} {l : List Call} (hw : ∀ e ∈ l, ∃ st t, e.place = p ++ st :: t ∧ P st) : under p l = l := by
  unfold under
  rw [List.filter_eq_self]
  intro e he
  obtain ⟨st', t', h1, _⟩ := hw e he
  rw [List.isPrefixOf_iff_prefix, h1]
  exact List.prefix_append _ _

section every
variable {h : Hooks σ} {recH : HRec σ} {recW : HRec (σ × List Call)} {env : Env}

theorem importFieldsH_under (hr : RecWatch False recH recW) (p : Place) (ctx : Ctx) (c : ClassDef) (raw : Data) (fds : List FieldDef) :
    ∀ (i : Nat) (a : Acc) (s : σ) (l evs : List Call) (a' : Acc) (s' : σ), importFieldsH h.watched recW env p ctx c raw i fds a (s, l) = (.ok a', (s', l ++ evs)) → ∀ (k : Nat) (fd : FieldDef), fds[k]? = some fd →
      ∃ inData s1 o s2, fieldOutcomeH h.watched recW env (p ++ [.fields] ++ [.at (i + k)]) ctx c raw inData fd (s1, []) = (.ok o, (s2, under (p ++ [.fields] ++ [.at (i + k)]) evs)) := by
  induction fds with
  | nil => intro _ _ _ _ _ _ _ _ k fd hk; cases k <;> cases hk
  | cons fd0 fds ih =>
    intro i a s l evs a' s' hrun k fd hk
    unfold importFieldsH St.bind at hrun
    obtain ⟨evs1, h1, h2⟩ := fieldOutcomeH_watch (ns := False) (h := h) (env := env) nofun hr (p ++ [.fields] ++ [.at i]) ctx c raw (a.data.has (.str fd0.name)) fd0 s
    rw [h1] at hrun
    have h10 := h1 []
    generalize fieldOutcomeH h recH env (p ++ [.fields] ++ [.at i]) ctx c raw (a.data.has (.str fd0.name)) fd0 s = y at *
    obtain ⟨y1, y2⟩ := y
    cases y1 with
    | error e => cases hrun
    | ok o =>
      dsimp only at hrun
      obtain ⟨evs2, h3, h4⟩ := importFieldsH_watch (ns := False) (h := h) (env := env) nofun hr p ctx c raw fds (i + 1) (a.apply fd0 o) y2
      have h5 := h3 (l ++ evs1)
      rw [hrun] at h5
      have h6 : evs = evs1 ++ evs2 := by
        have h7 := congrArg (fun x => x.2.2) h5
        dsimp only at h7
        rw [List.append_assoc] at h7
        exact List.append_cancel_left h7
      cases k with
      | zero =>
        cases hk
        refine ⟨a.data.has (.str fd0.name), s, o, y2, ?_⟩
        rw [Nat.add_zero, h10, h6, under_append, under_all h2.within]
        have : under (p ++ [.fields] ++ [.at i]) evs2 = [] := by
          refine under_other (t := []) h4.within ?_
          rintro ⟨j, hj, hij⟩
          cases hij
          exact absurd hj (Nat.not_succ_le_self _)
        rw [this, List.append_nil]
        rfl
      | succ k =>
        have e1 : l ++ evs = (l ++ evs1) ++ evs2 := by rw [h6, List.append_assoc]
        rw [e1] at hrun
        obtain ⟨inData, s1, o', s2, hx⟩ := ih (i + 1) _ y2 (l ++ evs1) evs2 a' s' hrun k fd hk
        refine ⟨inData, s1, o', s2, ?_⟩
        rw [show i + (k + 1) = i + 1 + k by omega, hx, h6, under_append]
        have : under (p ++ [.fields] ++ [.at (i + 1 + k)]) evs1 = [] := by
          refine under_other (P := (· = .at i)) (t := []) ?_ ?_
          · intro e he
            obtain ⟨st, t, h7, _⟩ := h2.within e he
            exact ⟨.at i, st :: t, by rw [h7]; simp, rfl⟩
          · intro hh; injection hh with hh; omega
        rw [this, List.nil_append]

theorem runValidatorsH_calls (p : Place) (app v : Val) (fs : List Validator) : ∀ (j : Nat) (s : σ) (l : List Call), (runValidatorsH h.watched p app v j fs (s, l)).2.2 = l ++ checkCalls h p app v j fs s := by
  induction fs with
  | nil => intro j s l; exact (List.append_nil l).symm
  | cons f fs ih =>
    intro j s l
    have e : p ++ [Step.checks] ++ [Step.at j] = p ++ [.checks, .at j] := by simp
    unfold runValidatorsH checkCalls St.handle
    rw [e]
    have hw : h.watched.check (p ++ [.checks, .at j]) f app v (s, l) =
        ((h.check (p ++ [.checks, .at j]) f app v s).1, ((h.check (p ++ [.checks, .at j]) f app v s).2, l ++ [⟨p ++ [.checks, .at j], .check f app v, (h.check (p ++ [.checks, .at j]) f app v s).1.exc⟩])) := rfl
    rw [hw]
    generalize h.check (p ++ [.checks, .at j]) f app v s = r
    obtain ⟨r1, r2⟩ := r
    cases r1 with
    | ok a => dsimp only; rw [ih]; simp
    | error x =>
      cases x with
      | field k m =>
        cases k with
        | valid =>
          dsimp only
          have h1 := ih (j + 1) r2 (l ++ [⟨p ++ [.checks, .at j], .check f app v, R.exc (.error (.field .valid m) : R Unit)⟩])
          unfold St.bind
          generalize runValidatorsH h.watched p app v (j + 1) fs _ = y at h1 ⊢
          obtain ⟨y1, y2⟩ := y
          cases y1 <;> (dsimp only [St.pure] at h1 ⊢; rw [h1]; simp)
        | _ => rfl
      | _ => rfl

theorem finishValidationH_calls (p : Place) (app v : Val) (fs : List Validator) (s : σ) (l : List Call) : (finishValidationH h.watched p app v fs (s, l)).2.2 = l ++ checkCalls h p app v 0 fs s := by
  have h1 := runValidatorsH_calls (h := h) p app v fs 0 s l
  unfold finishValidationH St.bind
  generalize runValidatorsH h.watched p app v 0 fs (s, l) = y at h1 ⊢
  obtain ⟨y1, y2⟩ := y
  cases y1 <;> exact h1

/-- **C102** (one value).  The calls for one value of a scalar type, whatever the user code does: exactly those of `valueCalls`. -/
theorem C102_value (env : Env) (n : Nat) (p : Place) (ctx : Ctx) (named : Bool) (f : Field) (l : Leaf) (hl : f.ty = .leaf l) (v : Val) (hv : v.isEmpty = false) (s : σ) (l0 : List Call) :
    (fieldConvH h.watched env (n + 1) p ctx named f v (s, l0)).2.2 = l0 ++ valueCalls h p ctx f l v s := by
  have hreq : requiredFails ctx named f v = false := by
    unfold requiredFails
    simp [hv]
  unfold fieldConvH fieldConvFH valueCalls
  have hne : ¬ (false = true) := nofun
  rw [hreq, hv, if_neg hne, if_neg hne]
  cases ctx.conv with
  | imp =>
    unfold convertFH
    rw [hl]
    rfl
  | val =>
    dsimp only
    unfold validateFH
    cases f.ty.override with
    | some g => rfl
    | none =>
      dsimp only
      cases hcv : ctx.convert with
      | true =>
        rw [if_pos rfl, if_pos rfl]
        unfold convertFH
        rw [hl]
        dsimp only
        unfold St.bind
        have hw : h.watched.native (p ++ [.conv]) l ctx.app v (s, l0) =
            ((h.native (p ++ [.conv]) l ctx.app v s).1, ((h.native (p ++ [.conv]) l ctx.app v s).2, l0 ++ [⟨p ++ [.conv], .native l ctx.app v, (h.native (p ++ [.conv]) l ctx.app v s).1.exc⟩])) := rfl
        rw [hw]
        generalize h.native (p ++ [.conv]) l ctx.app v s = r
        obtain ⟨r1, r2⟩ := r
        cases r1 with
        | error x => rfl
        | ok w => dsimp only; rw [finishValidationH_calls]; simp
      | false =>
        have : f.ty.isCompound = false := by rw [hl]; rfl
        rw [this, if_neg hne, if_neg hne]
        exact finishValidationH_calls p ctx.app v _ s l0

theorem St.bind_ok {m : St σ α} {k : α → St σ β} {s s' : σ} {a : α} (h : m s = (.ok a, s')) : St.bind m k s = k a s' := by
  unfold St.bind
  rw [h]

theorem St.bind_error {m : St σ α} {k : α → St σ β} {s s' : σ} {e : Exc} (h : m s = (.error e, s')) : St.bind m k s = (.error e, s') := by
  unfold St.bind
  rw [h]

theorem St.bind_inv {m : St σ α} {k : α → St σ β} {s s' : σ} {r : R β} (h : St.bind m k s = (r, s')) : (∃ e, m s = (.error e, s') ∧ r = .error e) ∨ ∃ a s1, m s = (.ok a, s1) ∧ k a s1 = (r, s') := by
  unfold St.bind at h
  rcases hm : m s with ⟨x, s1⟩
  rw [hm] at h
  cases x with
  | error e => cases h; exact .inl ⟨e, rfl, rfl⟩
  | ok a => exact .inr ⟨a, s1, rfl, h⟩

theorem St.handle_inv {m : St σ α} {k : α → St σ β} {g : Exc → St σ β} {s s' : σ} {r : R β} (h : St.handle m k g s = (r, s')) :
    (∃ e s1, m s = (.error e, s1) ∧ g e s1 = (r, s')) ∨ ∃ a s1, m s = (.ok a, s1) ∧ k a s1 = (r, s') := by
  unfold St.handle at h
  rcases hm : m s with ⟨x, s1⟩
  rw [hm] at h
  cases x with
  | error e => exact .inl ⟨e, s1, rfl, h⟩
  | ok a => exact .inr ⟨a, s1, rfl, h⟩

/-- Some default was read and raised. -/
def DefaultRaised (l : List Call) : Prop := ∃ e ∈ l, (∃ c fd, e.code = .dflt c fd) ∧ e.raised ≠ none

theorem DefaultRaised.left {l l' : List Call} (h : DefaultRaised l) : DefaultRaised (l ++ l') := by
  obtain ⟨e, he, hx⟩ := h
  exact ⟨e, List.mem_append.2 (.inl he), hx⟩

theorem DefaultRaised.right {l l' : List Call} (h : DefaultRaised l') : DefaultRaised (l ++ l') := by
  obtain ⟨e, he, hx⟩ := h
  exact ⟨e, List.mem_append.2 (.inr he), hx⟩

theorem fillValueH_calls (p : Place) (ctx : Ctx) (c : ClassDef) (fd : FieldDef) (v : Val) (s s' : σ) (evs : List Call) (x : Exc) (hx : fillValueH h.watched p ctx c fd v (s, []) = (.error x, (s', evs))) : DefaultRaised evs := by
  unfold fillValueH St.bind at hx
  split at hx
  · rename_i e s2 h2
    cases hx
    split at h2
    · have hw : h.watched.dflt (p ++ [.dflt]) c fd (s, []) = ((h.dflt (p ++ [.dflt]) c fd s).1, ((h.dflt (p ++ [.dflt]) c fd s).2, [⟨p ++ [.dflt], .dflt c fd, (h.dflt (p ++ [.dflt]) c fd s).1.exc⟩])) := rfl
      rw [hw] at h2
      generalize h.dflt (p ++ [.dflt]) c fd s = y at h2
      obtain ⟨y1, y2⟩ := y
      cases h2
      exact ⟨_, List.mem_singleton.2 rfl, ⟨c, fd, rfl⟩, nofun⟩
    · cases h2
  · cases hx

theorem failReplH_calls (p : Place) (ctx : Ctx) (c : ClassDef) (fd : FieldDef) (e : Exc) (s s' : σ) (evs : List Call) (x : Exc) (hx : failReplH h.watched p ctx c fd e (s, []) = (.error x, (s', evs))) : DefaultRaised evs := by
  unfold failReplH St.bind at hx
  split at hx
  · rename_i e s2 h2
    cases hx
    split at h2
    · have hw : h.watched.dflt (p ++ [.repl]) c fd (s, []) = ((h.dflt (p ++ [.repl]) c fd s).1, ((h.dflt (p ++ [.repl]) c fd s).2, [⟨p ++ [.repl], .dflt c fd, (h.dflt (p ++ [.repl]) c fd s).1.exc⟩])) := rfl
      rw [hw] at h2
      generalize h.dflt (p ++ [.repl]) c fd s = y at h2
      obtain ⟨y1, y2⟩ := y
      cases h2
      exact ⟨_, List.mem_singleton.2 rfl, ⟨c, fd, rfl⟩, nofun⟩
    · cases h2
  · cases hx

/-- A watched computation started on an empty list and on any list. -/
theorem Watch.shift {ns z start : Prop} {p : Place} {P : Step → Prop} {f : α → Prop} {m : St σ α} {m' : St (σ × List Call) α} (hw : Watch ns z start p P f m m') {s s' : σ} {l : List Call} {r : R α} {l' : List Call}
    (h : m' (s, l) = (r, (s', l'))) : ∃ evs, l' = l ++ evs ∧ (∀ l0, m' (s, l0) = (r, (s', l0 ++ evs))) ∧ Fine ns z start p P f r evs := by
  obtain ⟨evs, h1, h2⟩ := hw s
  have h3 := h1 l
  rw [h] at h3
  generalize m s = y at *
  obtain ⟨y1, y2⟩ := y
  cases h3
  exact ⟨evs, rfl, h1, h2⟩

theorem fieldOutcomeH_error (p : Place) (ctx : Ctx) (c : ClassDef) (raw : Data) (inData : Bool) (fd : FieldDef) (s s' : σ) (evs : List Call) (x : Exc)
    (hx : fieldOutcomeH h.watched recW env p ctx c raw inData fd (s, []) = (.error x, (s', evs))) : x.caught = false ∨ DefaultRaised evs := by
  unfold fieldOutcomeH at hx
  split at hx
  · cases hx
  · rcases St.bind_inv hx with ⟨e, h2, h3⟩ | ⟨v, ⟨s2, l2⟩, h2, hx⟩
    · exact .inr (fillValueH_calls p ctx c fd _ s _ evs e h2)
    · rcases St.handle_inv hx with ⟨e, ⟨s3, l3⟩, h3, hx⟩ | ⟨w, s3, h3, hx⟩
      · split at hx
        · rcases St.bind_inv hx with ⟨y, h4, _⟩ | ⟨r, s4, h4, hx⟩
          · obtain ⟨evs4, h5, h6, _⟩ := (failReplH_watch (ns := False) (h := h) nofun p ctx c fd e).shift h4
            have h7 := failReplH_calls p ctx c fd e s3 _ _ _ (h6 [])
            rw [h5]
            exact .inr h7.right
          · cases hx
        · rename_i hc
          cases hx
          exact .inl (by simpa using hc)
      · cases hx

theorem importFieldsH_error (hr : RecWatch False recH recW) (p : Place) (ctx : Ctx) (c : ClassDef) (raw : Data) (fds : List FieldDef) :
    ∀ (i : Nat) (a : Acc) (s s' : σ) (l evs : List Call) (x : Exc), importFieldsH h.watched recW env p ctx c raw i fds a (s, l) = (.error x, (s', l ++ evs)) → x.caught = false ∨ DefaultRaised evs := by
  induction fds with
  | nil => intro _ _ _ _ _ _ _ hx; cases hx
  | cons fd fds ih =>
    intro i a s s' l evs x hx
    unfold importFieldsH at hx
    rcases St.bind_inv hx with ⟨e, h2, h3⟩ | ⟨o, ⟨s2, l2⟩, h2, hx⟩
    · cases h3
      obtain ⟨evs2, h5, h6, _⟩ := (fieldOutcomeH_watch (ns := False) (h := h) (env := env) nofun hr _ ctx c raw (a.data.has (.str fd.name)) fd).shift h2
      have h7 := List.append_cancel_left h5
      subst h7
      exact fieldOutcomeH_error _ ctx c raw _ fd s _ _ _ (h6 [])
    · obtain ⟨evs2, h5, h6, _⟩ := (fieldOutcomeH_watch (ns := False) (h := h) (env := env) nofun hr _ ctx c raw (a.data.has (.str fd.name)) fd).shift h2
      subst h5
      obtain ⟨evs3, h7, h8, _⟩ := (importFieldsH_watch (ns := False) (h := h) (env := env) nofun hr p ctx c raw fds (i + 1) _).shift hx
      have h9 : evs = evs2 ++ evs3 := List.append_cancel_left (by rw [h7, List.append_assoc])
      rw [h9]
      exact (ih _ _ _ _ _ _ _ (h8 [])).imp id DefaultRaised.right

theorem fieldOutcomeH_value (env : Env) (n : Nat) (p : Place) (ctx : Ctx) (c : ClassDef) (raw : Data) (inData : Bool) (fd : FieldDef) (l : Leaf) (hl : fd.field.ty = .leaf l)
    (hv : (inputValue raw ctx.mapping fd).isEmpty = false) (s s' : σ) (evs : List Call) (o : Outcome)
    (hx : fieldOutcomeH h.watched (fieldConvH h.watched env n) env p ctx c raw inData fd (s, []) = (.ok o, (s', evs))) :
    under (p ++ [.value]) evs = valueCalls h (p ++ [.value]) ctx fd.field l (inputValue raw ctx.mapping fd) s := by
  unfold fieldOutcomeH at hx
  generalize inputValue raw ctx.mapping fd = v at *
  have hu : v.isUndef = false := by cases v <;> first | rfl | cases hv
  have hcomp : fd.field.ty.isCompound = false := by rw [hl]; rfl
  have hne : ¬ (false = true) := nofun
  rw [hu, Bool.false_and, if_neg hne, hcomp] at hx
  have hfill : fillValueH h.watched p ctx c fd v = St.pure (.ok v) := by
    unfold fillValueH
    rw [hu, Bool.false_and, if_neg hne]
    funext s
    simp [St.bind, St.pure, hu]
  rw [hfill] at hx
  have hval : ∀ r s2 l2, fieldConvH h.watched env n (p ++ [.value]) ctx true fd.field v (s, []) = (r, (s2, l2)) → (∀ x, r = .error x → x.caught = true) →
      under (p ++ [.value]) l2 = valueCalls h (p ++ [.value]) ctx fd.field l v s := by
    intro r s2 l2 h1 h2
    cases n with
    | zero => cases h1; cases h2 _ rfl
    | succ n =>
      have h3 := C102_value (h := h) env n (p ++ [.value]) ctx true fd.field l hl v hv s []
      rw [h1] at h3
      obtain ⟨evs1, h4, _, h5⟩ := (fieldConvH_watch (ns := False) (h := h) (env := env) nofun nofun (n + 1) (p ++ [.value]) ctx true fd.field v).shift h1
      rw [List.nil_append] at h4 h3
      subst h4
      rw [under_all h5.within]
      exact h3
  change St.handle (fieldConvH h.watched env n (p ++ [.value]) ctx true fd.field v) _ _ (s, []) = _ at hx
  rcases St.handle_inv hx with ⟨e, ⟨s3, l3⟩, h3, hx⟩ | ⟨w, s3, h3, hx⟩
  · split at hx
    · rename_i hc
      rcases St.bind_inv hx with ⟨y, h4, h5⟩ | ⟨r, s4, h4, hx⟩
      · cases h5
      · cases hx
        obtain ⟨evs4, h5, h6, h7⟩ := (failReplH_watch (ns := False) (h := h) nofun p ctx c fd e).shift h4
        rw [h5, under_append, under_other (st := .value) (t := []) h7.within nofun, List.append_nil]
        exact hval _ _ _ h3 (fun x hx => by cases hx; exact hc)
    · cases hx
  · cases hx
    exact hval _ _ _ h3 nofun

theorem importBodyH_value (env : Env) (n : Nat) (p : Place) (ctx : Ctx) (c : ClassDef) (raw : Data) (errs0 : Errs) (i : Nat) (fd : FieldDef) (hi : (c.loopFields ctx)[i]? = some fd) (l : Leaf) (hl : fd.field.ty = .leaf l)
    (hv : (inputValue raw ctx.mapping fd).isEmpty = false) (s s' : σ) (evs : List Call) (r : R Data)
    (hx : importBodyH h.watched (fieldConvH h.watched env n) env p ctx c raw errs0 (s, []) = (r, (s', evs))) (hr : ∀ x, r = .error x → x.caught = true) (hd : ¬ DefaultRaised evs) :
    ∃ s1, under (p ++ [.fields, .at i, .value]) evs = valueCalls h (p ++ [.fields, .at i, .value]) ctx fd.field l (inputValue raw ctx.mapping fd) s1 := by
  have hrec := fieldConvH_watch (ns := False) (h := h) (env := env) nofun nofun n
  unfold importBodyH at hx
  rcases St.bind_inv hx with ⟨e, h2, h3⟩ | ⟨a, s2, h2, hx⟩
  · rcases importFieldsH_error hrec p ctx c raw _ 0 _ s s' [] evs e h2 with h4 | h4
    · rw [hr e h3] at h4; cases h4
    · exact (hd h4).elim
  · cases hx
    obtain ⟨inData, s1, o, s3, h3⟩ := importFieldsH_under hrec p ctx c raw _ 0 _ s [] evs a s' h2 i fd hi
    rw [Nat.zero_add] at h3
    have h4 := fieldOutcomeH_value (h := h) env n _ ctx c raw inData fd l hl hv s1 s3 _ o h3
    have e1 : p ++ [Step.fields] ++ [Step.at i] ++ [Step.value] = p ++ [.fields, .at i, .value] := by simp
    rw [e1] at h4
    refine ⟨s1, ?_⟩
    rw [← h4]
    unfold under
    rw [List.filter_filter]
    refine List.filter_congr fun e _ => ?_
    rw [Bool.eq_iff_iff, Bool.and_eq_true]
    simp only [List.isPrefixOf_iff_prefix]
    refine ⟨fun h => ⟨h, List.IsPrefix.trans ⟨[.value], by simp⟩ h⟩, fun h => h.1⟩

/-- What `_mutate` leaves of the input of a class without setters (`transforms.py:199-200`). -/
def leftRaw (c : ClassDef) (mu : Mut) (raw : Data) : Data :=
  match mu with
  | .inst d => raw.update (c.view d)
  | .same _ => raw

/-- The input that the loop over the fields of a class without setters sees. -/
def loopInput (k : Start) (ctx : Ctx) (c : ClassDef) (mu : Mut) (raw : Data) : Data :=
  match k with
  | .validate => leftRaw c mu raw
  | .convert => if ctx.validate then leftRaw c mu raw else raw

theorem runMutateH_none (hc : c.settable = []) (recW : HRec (σ × List Call)) (p : Place) (ctx : Ctx) (mu : Mut) (raw : Data) :
    (∃ m : MutRes, m.raw = leftRaw c mu raw ∧ runMutateH h.watched recW p ctx c mu raw = St.pure (.ok m)) ∨ runMutateH h.watched recW p ctx c mu raw = St.pure (.error (.other "AttributeError")) := by
  unfold runMutateH
  rw [hc]
  cases mu with
  | inst d => exact .inl ⟨⟨[], d, raw.update (c.view d)⟩, rfl, rfl⟩
  | same b =>
    cases b
    · exact .inl ⟨⟨[], raw, raw⟩, rfl, rfl⟩
    · exact .inr rfl
end every

/-- **C102** (every value).  In a class without setters, if the run does not end with a foreign exception and no default raises: for *every* field of a scalar type that has a value in the input, whatever
else happens in the run, the calls made for it are exactly those of `valueCalls` — its conversion and its validators are called, and nothing else. -/
theorem C102_every_value (h : Hooks σ) (env : Env) (n : Nat) (k : Start) (ctx : Ctx) (c : ClassDef) (hc : c.settable = []) (mu : Mut) (raw : Data) (s : σ)
    (hr : ∀ x, (runH h env n k ctx c mu raw s).1 = .error x → x.caught = true) (hd : ¬ DefaultRaised (callsH h env n k ctx c mu raw s))
    (i : Nat) (fd : FieldDef) (hi : (c.loopFields ctx)[i]? = some fd) (l : Leaf) (hl : fd.field.ty = .leaf l) (v : Val) (hv : inputValue (loopInput k ctx c mu raw) ctx.mapping fd = v) (hne : v.isEmpty = false) :
    ∃ s', under [.fields, .at i, .value] (callsH h env n k ctx c mu raw s) = valueCalls h [.fields, .at i, .value] ctx fd.field l v s' := by
  subst hv
  have hrec := fieldConvH_watch (ns := False) (h := h) (env := env) nofun nofun n
  have hrun := (callsH_fine h env n k ctx c mu raw s).1
  generalize (runH h env n k ctx c mu raw s).1 = r at *
  generalize (runH h env n k ctx c mu raw s).2 = s' at *
  generalize callsH h env n k ctx c mu raw s = evs at *
  cases k with
  | convert =>
    change importLoopH h.watched (fieldConvH h.watched env n) env [] ctx c mu raw (s, []) = _ at hrun
    unfold importLoopH at hrun
    unfold loopInput at hne ⊢
    split at hrun
    · rename_i hval
      dsimp only at hne ⊢
      rw [if_pos hval] at hne ⊢
      rcases runMutateH_none (h := h) hc (fieldConvH h.watched env n) [] ctx mu raw with ⟨m, hm, hm'⟩ | hm
      · rw [hm'] at hrun
        rw [← hm] at hne ⊢
        exact importBodyH_value env n [] ctx c m.raw m.errs i fd hi l hl hne s s' evs r hrun hr hd
      · rw [hm] at hrun
        cases hrun
        cases hr _ rfl
    · rename_i hval
      dsimp only at hne ⊢
      rw [if_neg hval] at hne ⊢
      exact importBodyH_value env n [] ctx c raw [] i fd hi l hl hne s s' evs r hrun hr hd
  | validate =>
    change validateFnH h.watched (fieldConvH h.watched env n) env [] ctx c mu raw (s, []) = _ at hrun
    unfold validateFnH at hrun
    unfold loopInput at hne ⊢
    dsimp only at hne ⊢
    rcases runMutateH_none (h := h) hc (fieldConvH h.watched env n) [] ctx mu raw with ⟨m, hm, hm'⟩ | hm
    · rw [hm'] at hrun
      rw [← hm] at hne ⊢
      change St.bind (St.handle _ _ _) _ (s, []) = _ at hrun
      -- the loop over the fields raised `x`, or not; then the methods
      rcases St.bind_inv hrun with ⟨e, h2, h3⟩ | ⟨a, ⟨s2, l2⟩, h2, hrun⟩
      · rcases St.handle_inv h2 with ⟨x, ⟨s3, l3⟩, h4, h5⟩ | ⟨d, s3, h4, h5⟩
        · have h6 : x = e ∧ (s3, l3) = (s', evs) := by
            cases x <;> first | (cases h5; exact ⟨rfl, rfl⟩) | cases h5
          obtain ⟨rfl, h6⟩ := h6
          cases h6
          exact importBodyH_value env n [] ctx c m.raw m.errs i fd hi l hl hne s _ evs _ h4 (fun x hx => by cases hx; exact hr _ h3) hd
        · cases h5
      · have key : ∀ (x : R Data) (hx : ∀ y, x = .error y → y.caught = true), importBodyH h.watched (fieldConvH h.watched env n) env [] ctx c m.raw m.errs (s, []) = (x, (s2, l2)) →
            ∃ s', under [.fields, .at i, .value] evs = valueCalls h [.fields, .at i, .value] ctx fd.field l (inputValue m.raw ctx.mapping fd) s' := by
          intro x hx h4
          have hw : Watch False False False ([] : Place) (· = .methods) (fun _ : Data => True) (St.bind (St.bind (modelValidatorsH h [] c m.data ctx.app 0 c.fields a.2) fun x => St.pure (finishModel x)) fun x => St.pure (finishBoth a.1 x))
              (St.bind (St.bind (modelValidatorsH h.watched [] c m.data ctx.app 0 c.fields a.2) fun x => St.pure (finishModel x)) fun x => St.pure (finishBoth a.1 x)) :=
            Watch.after (f := fun _ => True) (Watch.after (f := fun r => r.1 ≠ []) (Watch.embed (modelValidatorsH_watch nofun [] c m.data ctx.app c.fields 0 a.2)) (fun _ h => h.elim) (fun _ _ h => h.elim))
              (fun _ h => h.elim) (fun _ _ h => h.elim)
          obtain ⟨evs2, h5, h6, h7⟩ := hw.shift hrun
          subst h5
          obtain ⟨s1, h8⟩ := importBodyH_value env n [] ctx c m.raw m.errs i fd hi l hl hne s s2 l2 x h4 hx (fun hh => hd hh.left)
          refine ⟨s1, ?_⟩
          rw [under_append]
          have h9 : under ([] ++ [Step.fields, .at i, .value]) evs2 = [] := under_other h7.within nofun
          rw [List.nil_append] at h9
          rw [h9, List.append_nil]
          exact h8
        rcases St.handle_inv h2 with ⟨x, ⟨s3, l3⟩, h4, h5⟩ | ⟨d, s3, h4, h5⟩
        · cases x with
          | data es d => cases h5; exact key _ (fun y hy => by cases hy; rfl) h4
          | _ => cases h5
        · cases h5
          exact key (.ok d) nofun h4
    · rw [hm] at hrun
      cases hrun
      cases hr _ rfl

/-! ## The `validate_` methods -/

/-- The calls of the `validate_<field>` methods, on the data `d`: one for every field that has a value and a method, in order; a method that returns leaves its changes of the data for the next; after an
exception other than a `ValidationError` or a `DataError` no more. -/
def methodCalls (h : Hooks σ) (c : ClassDef) (mv : Data) (app : Val) : Nat → List FieldDef → Data → σ → List Call
  | _, [], _, _ => []
  | i, fd :: fds, d, s =>
    match (if (rawValue d fd.name).isUndef then none else Dict.get? c.validators fd.name) with
    | none => methodCalls h c mv app (i + 1) fds d s
    | some f =>
      let r := h.model [.methods, .at i] f mv d (rawValue d fd.name) app s
      ⟨[.methods, .at i], .model f mv d (rawValue d fd.name) app, r.1.exc⟩ ::
        match r.1 with
        | .ok d' => methodCalls h c mv app (i + 1) fds d' r.2
        | .error (.field _ _) => methodCalls h c mv app (i + 1) fds d r.2
        | .error (.data _ _) => methodCalls h c mv app (i + 1) fds d r.2
        | .error _ => []

theorem modelValidatorsH_calls (h : Hooks σ) (c : ClassDef) (mv : Data) (app : Val) (fds : List FieldDef) :
    ∀ (i : Nat) (d : Data) (s : σ) (l : List Call), (modelValidatorsH h.watched [] c mv app i fds d (s, l)).2.2 = l ++ methodCalls h c mv app i fds d s := by
  induction fds with
  | nil => intro i d s l; exact (List.append_nil l).symm
  | cons fd fds ih =>
    intro i d s l
    unfold modelValidatorsH methodCalls methodFor
    cases (if (rawValue d fd.name).isUndef then none else Dict.get? c.validators fd.name) with
    | none => exact ih _ _ _ _
    | some f =>
      dsimp only
      unfold St.handle
      have hw : h.watched.model ([] ++ [.methods] ++ [.at i]) f mv d (rawValue d fd.name) app (s, l) =
          ((h.model [.methods, .at i] f mv d (rawValue d fd.name) app s).1, ((h.model [.methods, .at i] f mv d (rawValue d fd.name) app s).2,
            l ++ [⟨[.methods, .at i], .model f mv d (rawValue d fd.name) app, (h.model [.methods, .at i] f mv d (rawValue d fd.name) app s).1.exc⟩])) := rfl
      rw [hw]
      generalize h.model [.methods, .at i] f mv d (rawValue d fd.name) app s = r
      obtain ⟨r1, r2⟩ := r
      have fin : ∀ (x : R (Errs × List String × Data)) (k : Errs × List String × Data → R (Errs × List String × Data)) (l' : List Call),
          (St.bind (modelValidatorsH h.watched [] c mv app (i + 1) fds d) (fun r => St.pure (k r)) (r2, l')).2.2 = l' ++ methodCalls h c mv app (i + 1) fds d r2 := by
        intro x k l'
        have h1 := ih (i + 1) d r2 l'
        unfold St.bind
        generalize modelValidatorsH h.watched [] c mv app (i + 1) fds d (r2, l') = y at h1 ⊢
        obtain ⟨y1, y2⟩ := y
        cases y1 <;> exact h1
      cases r1 with
      | ok d' => dsimp only; rw [ih]; simp
      | error x =>
        cases x with
        | field k m => exact (fin (.error .fuel) _ _).trans (by simp)
        | data es d' => exact (fin (.error .fuel) _ _).trans (by simp)
        | _ => rfl

/-- What the methods of a class without setters see as the model instance (`validate.py:95`). -/
def leftData (mu : Mut) (raw : Data) : Data :=
  match mu with
  | .inst d => d
  | .same _ => raw

/-- **C102** (methods).  In a class without setters: `validate` calls what `convert` with `validate=True` calls, and then, if that gave data — all converted, or the partial data of a `DataError` —
exactly the `validate_<field>` methods of the fields that have a value in it. -/
theorem C102_methods (h : Hooks σ) (env : Env) (n : Nat) (ctx : Ctx) (hval : ctx.validate = true) (c : ClassDef) (hc : c.settable = []) (mu : Mut) (raw : Data) (s : σ) :
    callsH h env n .validate ctx c mu raw s = callsH h env n .convert ctx c mu raw s ++
      match runH h env n .convert ctx c mu raw s with
      | (.ok d, s') => methodCalls h c (leftData mu raw) ctx.app 0 c.fields d s'
      | (.error (.data _ d), s') => methodCalls h c (leftData mu raw) ctx.app 0 c.fields d s'
      | (.error _, _) => [] := by
  have hb := (callsH_fine h env n .convert ctx c mu raw s).1
  have hrun : runH h.watched env n .convert ctx c mu raw (s, []) = importLoopH h.watched (fieldConvH h.watched env n) env [] ctx c mu raw (s, []) := rfl
  have hlp : callsH h env n .validate ctx c mu raw s = (validateFnH h.watched (fieldConvH h.watched env n) env [] ctx c mu raw (s, [])).2.2 := rfl
  rw [hrun] at hb
  rw [hlp]
  generalize callsH h env n .convert ctx c mu raw s = evs at *
  generalize runH h env n .convert ctx c mu raw s = y at *
  obtain ⟨y1, s'⟩ := y
  dsimp only at hb
  unfold importLoopH at hb
  rw [if_pos hval] at hb
  unfold validateFnH
  have hm : (∃ m : MutRes, m.data = leftData mu raw ∧ runMutateH h.watched (fieldConvH h.watched env n) [] ctx c mu raw = St.pure (.ok m)) ∨
      runMutateH h.watched (fieldConvH h.watched env n) [] ctx c mu raw = St.pure (.error (.other "AttributeError")) := by
    unfold runMutateH
    rw [hc]
    cases mu with
    | inst d => exact .inl ⟨⟨[], d, raw.update (c.view d)⟩, rfl, rfl⟩
    | same b =>
      cases b
      · exact .inl ⟨⟨[], raw, raw⟩, rfl, rfl⟩
      · exact .inr rfl
  rcases hm with ⟨m, hm1, hm2⟩ | hm
  · rw [hm2] at hb ⊢
    change importBodyH h.watched (fieldConvH h.watched env n) env [] ctx c m.raw m.errs (s, []) = _ at hb
    have key : ∀ (es : Errs) (d : Data), (St.bind (St.bind (modelValidatorsH h.watched [] c m.data ctx.app 0 c.fields d) fun x => St.pure (finishModel x)) (fun x => St.pure (finishBoth es x)) (s', evs)).2.2 =
        evs ++ methodCalls h c (leftData mu raw) ctx.app 0 c.fields d s' := by
      intro es d
      have h1 := modelValidatorsH_calls h c m.data ctx.app c.fields 0 d s' evs
      rw [← hm1]
      unfold St.bind
      generalize modelValidatorsH h.watched [] c m.data ctx.app 0 c.fields d (s', evs) = z at h1 ⊢
      obtain ⟨z1, z2⟩ := z
      cases z1 with
      | error e => exact h1
      | ok a =>
        dsimp only [St.pure]
        cases finishModel a <;> exact h1
    have hh : ∀ (r : R (Errs × Data)), St.pure (σ := σ × List Call) r (s', evs) = (match y1 with
        | .ok d => St.pure (.ok (([] : Errs), d)) (s', evs)
        | .error e => St.pure (catchData e) (s', evs)) →
        St.handle (importBodyH h.watched (fieldConvH h.watched env n) env [] ctx c m.raw m.errs) (fun d => St.pure (.ok (([] : Errs), d))) (fun e => St.pure (catchData e)) (s, []) = (r, (s', evs)) := by
      intro r hr
      unfold St.handle
      rw [hb]
      cases y1 <;> exact hr.symm
    change (St.bind (St.handle _ _ _) _ (s, [])).2.2 = _
    cases y1 with
    | ok d => rw [St.bind_ok (hh (.ok ([], d)) rfl)]; exact key [] d
    | error x =>
      cases x with
      | data es d => rw [St.bind_ok (hh (.ok (es, d)) rfl)]; exact key es d
      | _ => rw [St.bind_error (hh (.error _) rfl)]; exact (List.append_nil _).symm
  · rw [hm] at hb ⊢
    cases hb
    rfl

/-! ## Witnesses -/

namespace Samples
/-- The pure meaning, and every call is counted. -/
def counting : Hooks Nat where
  dflt _ _ fd s := (.ok fd.field.o.default, s + 1)
  native _ l app v s := (l.toNative app v, s + 1)
  override _ g b app v s := (g b app v, s + 1)
  check _ f app v s := (f app v, s + 1)
  model _ f m d v app s := (f m d v app, s + 1)
  setter _ f w s := (f w, s + 1)

/-- Defaults, conversions, validators and setters that raise; `validate_` methods and overrides return what they got. -/
def raising (dflt native check setter : Nat → Option Exc) : Hooks Nat where
  dflt _ _ fd s := (match dflt s with | some e => .error e | none => .ok fd.field.o.default, s + 1)
  native _ _ _ v s := (match native s with | some e => .error e | none => .ok v, s + 1)
  override _ _ _ _ v s := (.ok v, s + 1)
  check _ _ _ _ s := (match check s with | some e => .error e | none => .ok (), s + 1)
  model _ _ _ d _ _ s := (.ok d, s + 1)
  setter _ _ _ s := (match setter s with | some e => .error e | none => .ok [], s + 1)

/-- Raises nothing. -/
def quietly : Nat → Option Exc := fun _ => none

/-- Raises `e` always. -/
def always (e : Exc) : Nat → Option Exc := fun _ => some e

/-- Three validators with the one for `choices`. -/
def threeLeaf : Leaf where
  toNative _ v := .ok v
  validators := [fun _ _ => .ok (), fun _ _ => .ok ()]

/-- `class Three(Model): a = ThreeType()` with a `validate_a`, and `b = ThreeType()`. -/
def three : ClassDef where
  name := "Three"
  fields := [{ name := "a", field := .mk (.leaf threeLeaf) {} }, { name := "b", field := .mk (.leaf threeLeaf) {} }]
  validators := [("a", fun _ d _ _ => .ok d)]

/-- A class with a setter `a`. -/
def setA : ClassDef where
  name := "SetA"
  fields := [{ name := "a", field := .mk (.leaf threeLeaf) {}, fget := some fun _ => none, fset := some fun _ => .ok [] }]

/-- A conversion. -/
def _root_.Verif.Code.isNative : Code → Bool
  | .native _ _ _ => true
  | _ => false

/-- Places and exceptions of calls. -/
def shown (l : List Call) : List (Place × Option Exc) := l.map fun e => (e.place, e.raised)
end Samples

open Samples in
/-- A validating run: for each field the conversion and the validators in order — the second validator of `b` stops — then the method of `a`. -/
theorem C102_witness_order :
    shown (callsH (raising quietly quietly (fun n => if n = 6 then some (.field .stop ["enough"]) else none) quietly) env 3 .validate vctx three (.inst []) [(.str "a", .int 1), (.str "b", .int 2)] 0) =
      [([.fields, .at 0, .value, .conv], none), ([.fields, .at 0, .value, .checks, .at 0], none), ([.fields, .at 0, .value, .checks, .at 1], none), ([.fields, .at 0, .value, .checks, .at 2], none),
       ([.fields, .at 1, .value, .conv], none), ([.fields, .at 1, .value, .checks, .at 0], none), ([.fields, .at 1, .value, .checks, .at 1], some (.field .stop ["enough"])),
       ([.fields, .at 1, .repl], none), ([.methods, .at 0], none)] := rfl

open Samples in
/-- **C102, counterexample, `AttributeError` of a setter**: the call raised, the run succeeds and goes on. -/
theorem C102_counterexample_setter :
    (runH (raising quietly quietly quietly (always (.other "AttributeError"))) env 3 .validate vctx setA (.inst []) [(.str "a", .int 1)] 0).1 = .ok [(.str "a", .int 1)] ∧
    (shown (callsH (raising quietly quietly quietly (always (.other "AttributeError"))) env 3 .validate vctx setA (.inst []) [(.str "a", .int 1)] 0)).take 5 =
      [([.setters, .at 0, .input, .conv], none), ([.setters, .at 0, .input, .checks, .at 0], none), ([.setters, .at 0, .input, .checks, .at 1], none), ([.setters, .at 0, .input, .checks, .at 2], none),
       ([.setters, .at 0, .assign], some (.other "AttributeError"))] := ⟨rfl, rfl⟩

open Samples in
/-- **C102, counterexample, `DataError({})` of a default**: the call raised, the run succeeds with the data of that exception. -/
theorem C102_counterexample_hollow :
    (runH (raising (always (.data [] [(.str "zz", .int 0)])) quietly quietly quietly) env 3 .validate vctx three (.inst []) [] 0).1 = .ok [(.str "zz", .int 0)] := rfl

/-! ## The hypotheses are met -/

open Samples in
example : counting.Steady := ⟨fun _ _ _ _ => rfl, fun _ _ _ _ _ => rfl, fun _ _ _ _ _ _ => rfl, fun _ _ _ _ _ => rfl, fun _ _ _ _ _ _ _ => rfl, fun _ _ _ _ => rfl⟩

open Samples in
/-- User code that raises a `ValidationError` in every validator. -/
theorem Samples.grumpy_tame : Tame (raising quietly quietly (always (.field .valid ["no"])) quietly) env := by
  refine ⟨⟨nofun, nofun, nofun, ?_, nofun, nofun⟩, ?_⟩
  · intro p f app v s x hx
    cases hx
    exact id
  · exact env_classes rfl rfl

open Samples in
example : ∃ x, (runH (raising quietly quietly (always (.field .valid ["no"])) quietly) env 3 .validate vctx three (.inst []) [(.str "a", .int 1)] 0).1 = .error x :=
  C102_errors_reported _ _ _ _ _ _ _ _ _ grumpy_tame rfl ⟨[.fields, .at 0, .value, .checks, .at 0], .check (fun _ _ => .ok ()) (.dict []) (.int 1), some (.field .valid ["no"])⟩
    (List.mem_cons_of_mem _ (List.mem_cons_self ..)) nofun

open Samples in
/-- A conversion that raises: no validators. -/
example : shown (callsH (raising quietly (always (.field .conv ["no"])) quietly quietly) env 3 .validate vctx three (.inst []) [(.str "a", .int 1), (.str "b", .int 2)] 0) =
    [([.fields, .at 0, .value, .conv], some (.field .conv ["no"])), ([.fields, .at 0, .repl], none), ([.fields, .at 1, .value, .conv], some (.field .conv ["no"])), ([.fields, .at 1, .repl], none)] := rfl

open Samples in
/-- A conversion that raises `TypeError`: the end. -/
example : shown (callsH (raising quietly (always (.other "TypeError")) quietly quietly) env 3 .validate vctx three (.inst []) [(.str "a", .int 1), (.str "b", .int 2)] 0) =
    [([.fields, .at 0, .value, .conv], some (.other "TypeError"))] := rfl

open Samples in
/-- The premises of `C102_every_value`, in a run with an error. -/
example : (∀ x, (runH (raising quietly (fun n => if n = 0 then some (.field .conv ["no"]) else none) quietly quietly) env 3 .validate vctx three (.inst []) [(.str "a", .int 1), (.str "b", .int 2)] 0).1 = .error x → x.caught = true) ∧
    ¬ DefaultRaised (callsH (raising quietly (fun n => if n = 0 then some (.field .conv ["no"]) else none) quietly quietly) env 3 .validate vctx three (.inst []) [(.str "a", .int 1), (.str "b", .int 2)] 0) ∧
    three.settable = [] ∧ (∃ fd, (three.loopFields vctx)[1]? = some fd ∧ inputValue (loopInput .validate vctx three (.inst []) [(.str "a", .int 1), (.str "b", .int 2)]) vctx.mapping fd = .int 2) := by
  refine ⟨?_, ?_, rfl, _, rfl, rfl⟩
  · intro x hx
    cases hx
    rfl
  · rintro ⟨e, he, ⟨c, fd, hc⟩, hr⟩
    have hl : (callsH (raising quietly (fun n => if n = 0 then some (.field .conv ["no"]) else none) quietly quietly) env 3 .validate vctx three (.inst []) [(.str "a", .int 1), (.str "b", .int 2)] 0).all
        (fun e => e.raised.isNone || e.code.isNative) = true := rfl
    have h1 := List.all_eq_true.1 hl e he
    rw [hc] at h1
    cases hx : e.raised with
    | none => exact hr hx
    | some x => rw [hx] at h1; cases h1
end Verif
