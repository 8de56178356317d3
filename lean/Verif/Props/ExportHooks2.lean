import Verif.Props.ExportHooks

/-!
# C104: when user code is called during an export
-/
namespace Verif.Exports

open Verif

/-! ## User code whose results depend on the arguments only -/

section steady
variable {h : Hooks σ} {env : Env} {ctx : ECtx} {recH : HERec σ} {rec : ERec}

theorem readH_res (hs : h.Steady) (p : Spot) (fd : FieldDef) (src : Src) : Res (readH h p fd src) (.ok (src.read fd)) := by
  intro s
  cases src with
  | map d => rfl
  | other => rfl
  | inst d =>
    unfold readH Src.read
    dsimp only
    cases hg : fd.fget with
    | none => rfl
    | some g =>
      dsimp only
      have h1 := hs.getter (p ++ [.get]) g d s
      unfold St.handle
      rcases hx : h.getter (p ++ [.get]) g d s with ⟨r, s'⟩
      rw [hx] at h1 ⊢
      cases hv : g d with
      | none => rw [hv] at h1; obtain ⟨e, rfl⟩ := h1; rfl
      | some v => rw [hv] at h1; cases h1; rfl

theorem askH_res (hs : h.Steady) (p : Spot) (name : String) (v : Val) (flt : Option RoleFn) : Res (askH h p name v flt) (.ok (skipped flt name v)) := by
  cases flt with
  | none => exact Res.pure _
  | some g => exact hs.role _ g name v

theorem exportFieldH_res (hs : h.Steady) (hr : ∀ p owner f v, Res (recH p owner f v) (rec owner f v)) (owner : Nat) (flt : Option RoleFn) (src : Src) (p : Spot) (fd : FieldDef) :
    Res (exportFieldH h recH ctx owner flt src p fd) (exportField rec ctx owner flt src fd) := by
  refine Res.bind' (readH_res hs p fd src) (fun v hv => ?_) nofun
  cases hv
  refine Res.bind' (askH_res hs p fd.name _ flt) (fun b hb => ?_) nofun
  cases hb
  unfold exportField
  dsimp only
  by_cases h1 : skipped flt fd.name (src.read fd) = true
  · rw [if_pos h1, if_pos h1]; exact Res.pure _
  · rw [if_neg h1, if_neg h1]
    unfold permitH
    by_cases h2 : exportLevelOf ctx owner fd.field = DROP
    · rw [if_pos h2, if_pos h2]; exact Res.pure _
    · rw [if_neg h2, if_neg h2]
      by_cases h3 : (src.read fd).isEmpty = true
      · rw [if_pos h3, if_pos h3]
        refine (Res.bind (r := .ok (src.read fd)) (Res.pure _) fun _ _ => Res.pure _).of_eq ?_
        unfold R.andThen
        dsimp only
        cases hidden (exportLevelOf ctx owner fd.field) fd.field (src.read fd) <;> rfl
      · rw [if_neg h3, if_neg h3]
        refine (Res.bind (hr _ owner fd.field (src.read fd)) fun _ _ => Res.pure _).of_eq ?_
        cases rec owner fd.field (src.read fd) with
        | error e => rfl
        | ok w =>
          unfold R.andThen
          dsimp only
          cases hidden (exportLevelOf ctx owner fd.field) fd.field w <;> rfl

theorem exportFieldsH_res (hs : h.Steady) (hr : ∀ p owner f v, Res (recH p owner f v) (rec owner f v)) (owner : Nat) (flt : Option RoleFn) (src : Src) (p : Spot) (fds : List FieldDef) :
    ∀ i d, Res (exportFieldsH h recH ctx owner flt src p i fds d) (exportFields rec ctx owner flt src fds d) := by
  induction fds with
  | nil => intro i d; exact Res.pure _
  | cons fd fds ih =>
    intro i d
    refine (Res.bind (exportFieldH_res hs hr owner flt src (p ++ [.at i]) fd) fun o _ => ih (i + 1) (putX fd d o)).of_eq ?_
    rw [exportFields]
    cases exportField rec ctx owner flt src fd with
    | error e => rfl
    | ok o => cases o <;> rfl

theorem exportLoopH_res (hs : h.Steady) (hr : ∀ p owner f v, Res (recH p owner f v) (rec owner f v)) (c : ClassDef) (src : Src) (p : Spot) :
    Res (exportLoopH h recH ctx c src p) (exportLoop rec ctx c src) := by
  unfold exportLoopH
  refine Res.bind' (r := .ok ()) (fun s => rfl) (fun _ _ => ?_) nofun
  unfold exportBodyH exportLoop
  cases roleFilter ctx c with
  | none => exact Res.pure _
  | some flt => exact exportFieldsH_res hs hr c.exportLevel flt src p c.fields 0 []

theorem exportItemsH_res {f : Nat → Val → St σ Val} {g : Val → R Val} (hf : ∀ i x, Res (f i x) (g x)) (hide : Val → Bool) (xs : List Val) :
    ∀ i, Res (exportItemsH f hide i xs) (exportItems g hide xs) := by
  induction xs with
  | nil => intro i; exact Res.pure _
  | cons x xs ih =>
    intro i
    refine (Res.bind (hf i x) fun y _ => Res.bind (ih (i + 1)) fun ys _ => Res.pure _).of_eq ?_
    rw [exportItems]
    cases g x with
    | error e => rfl
    | ok y =>
      cases exportItems g hide xs with
      | error e => rfl
      | ok ys => unfold R.andThen; dsimp only; cases hide y <;> rfl

theorem exportPairsH_res {f : Nat → Val → St σ Val} {g : Val → R Val} (hf : ∀ i x, Res (f i x) (g x)) (hide : Val → Bool) (xs : List (Key × Val)) :
    ∀ i, Res (exportPairsH f hide i xs) (exportPairs g hide xs) := by
  induction xs with
  | nil => intro i; exact Res.pure _
  | cons kx xs ih =>
    obtain ⟨k, x⟩ := kx
    intro i
    refine (Res.bind (hf i x) fun y _ => Res.bind (ih (i + 1)) fun ys _ => Res.pure _).of_eq ?_
    rw [exportPairs]
    cases g x with
    | error e => rfl
    | ok y =>
      cases exportPairs g hide xs with
      | error e => rfl
      | ok ys => unfold R.andThen; dsimp only; cases hide y <;> rfl

theorem nestedH_res (hs : h.Steady) (hr : ∀ p owner f v, Res (recH p owner f v) (rec owner f v)) (p : Spot) (r : R (ClassDef × Src)) :
    Res (nestedH h recH ctx p r) (R.andThen r fun cs => exportModel rec ctx cs.1 cs.2) := by
  cases r with
  | error e => exact Res.pure _
  | ok cs =>
    refine (Res.bind (exportLoopH_res hs hr cs.1 cs.2 p) fun d _ => Res.pure _).of_eq ?_
    unfold R.andThen exportModel
    dsimp only
    cases exportLoop rec ctx cs.1 cs.2 <;> rfl

theorem exportFH_res (hs : h.Steady) (hr : ∀ p owner f v, Res (recH p owner f v) (rec owner f v)) (p : Spot) (owner : Nat) (f : Field) (v : Val) :
    Res (exportFH h recH env ctx p owner f v) (exportF rec env ctx owner f v) := by
  unfold exportFH
  refine Res.bind' (r := .ok ()) (fun s => rfl) (fun _ _ => ?_) nofun
  cases ht : f.ty with
  | leaf l =>
    unfold exportTypeH exportF
    rw [ht]
    refine (hs.conv _ ctx.fmt l ctx.app v).of_eq ?_
    dsimp only
    cases ctx.fmt <;> rfl
  | list inner mn mx =>
    unfold exportTypeH exportF
    rw [ht]
    dsimp only
    by_cases hl : exportLevelOf ctx owner inner = DROP
    · rw [if_pos hl, if_pos hl]; exact Res.pure _
    · rw [if_neg hl, if_neg hl]
      cases iterItems env v with
      | none => exact Res.pure _
      | some xs =>
        refine (Res.bind (exportItemsH_res (fun i x => hr (p ++ [.at i]) owner inner x) _ xs 0) fun ys _ => Res.pure _).of_eq ?_
        dsimp only
        cases exportItems (rec owner inner) (hiddenItem (exportLevelOf ctx owner inner) inner) xs <;> rfl
  | dict inner co =>
    unfold exportTypeH exportF
    rw [ht]
    dsimp only
    by_cases hl : exportLevelOf ctx owner inner = DROP
    · rw [if_pos hl, if_pos hl]; exact Res.pure _
    · rw [if_neg hl, if_neg hl]
      cases iterPairs env v with
      | none => exact Res.pure _
      | some xs =>
        refine (Res.bind (exportPairsH_res (fun i x => hr (p ++ [.at i]) owner inner x) _ xs 0) fun ys _ => Res.pure _).of_eq ?_
        dsimp only
        cases exportPairs (rec owner inner) (hiddenItem (exportLevelOf ctx owner inner) inner) xs <;> rfl
  | model cls =>
    rw [nested_exportF _ _ _ _ _ _ (.inl ⟨cls, ht⟩), ht]
    refine (nestedH_res hs hr _ _).of_eq ?_
    cases nested env (.model cls) v <;> rfl
  | poly q =>
    rw [nested_exportF _ _ _ _ _ _ (.inr ⟨q, ht⟩), ht]
    refine (nestedH_res hs hr _ _).of_eq ?_
    cases nested env (.poly q) v <;> rfl

theorem fieldExportH_res (hs : h.Steady) (n : Nat) : ∀ p owner f v, Res (fieldExportH h env ctx n p owner f v) (fieldExport env ctx n owner f v) := by
  induction n with
  | zero => intro p owner f v; exact Res.pure _
  | succ n ih => exact exportFH_res hs ih

end steady

/-- **C104, effects do not matter**: if the results of the user code depend on its arguments only, its effects change nothing in the outcome of an export. -/
theorem C104_steady {h : Hooks σ} (hs : h.Steady) (env : Env) (n : Nat) (ctx : ECtx) (c : ClassDef) (src : Src) (s : σ) :
    (runExportH h env n ctx c src s).1 = runExport env n ctx c src := exportLoopH_res hs (fieldExportH_res hs n) c src [] s

/-! ## The events of a run -/

/-- The beginning of a run. -/
def start (c : ClassDef) (src : Src) : Event := ⟨[], .begin (.model c src)⟩

theorem run_logged (h : Hooks σ) (env : Env) (n : Nat) (ctx : ECtx) (c : ClassDef) (src : Src) :
    Logged env ctx (start c src) (fun q => q = [] ∨ ∃ a t, q = [] ++ a :: t) (fun _ => True) (fun _ l => start c src ∈ l) (runExportH h env n ctx c src) (runExportH h.watched env n ctx c src) :=
  exportLoopH_logged (fieldExportH_logged h n) (fun _ _ => .top) fun _ _ _ => trivial

theorem run_fine (h : Hooks σ) (env : Env) (n : Nat) (ctx : ECtx) (c : ClassDef) (src : Src) (s : σ) :
    Fine env ctx (start c src) (fun q => q = [] ∨ ∃ a t, q = [] ++ a :: t) (fun _ => True) (fun _ l => start c src ∈ l) (runExportH h env n ctx c src s).1 (happens h env n ctx c src s) := by
  obtain ⟨evs, hm, hf⟩ := run_logged h env n ctx c src s
  have : happens h env n ctx c src s = evs := by unfold happens; rw [hm]; rfl
  rw [this]
  exact hf

/-- **C104, watching does not disturb**: a watched run has the same outcome and the same effects. -/
theorem C104_watching (h : Hooks σ) (env : Env) (n : Nat) (ctx : ECtx) (c : ClassDef) (src : Src) (s : σ) :
    (runExportH h.watched env n ctx c src (s, [])).1 = (runExportH h env n ctx c src s).1 ∧ (runExportH h.watched env n ctx c src (s, [])).2.1 = (runExportH h env n ctx c src s).2 := by
  obtain ⟨evs, hm, _⟩ := run_logged h env n ctx c src s
  rw [hm]
  exact ⟨rfl, rfl⟩

/-- **C104, order**: whatever the user code does, things happen in a fixed order: a model before its fields, the fields in order; for a field first its getter, then the role function, then the export
of its value; the items of lists and dicts in order. -/
theorem C104_order (h : Hooks σ) (env : Env) (n : Nat) (ctx : ECtx) (c : ClassDef) (src : Src) (s : σ) : (happens h env n ctx c src s).Pairwise fun a b => Earlier a.spot b.spot :=
  (run_fine h env n ctx c src s).order

theorem Earlier.irrefl (p : Spot) : ¬ Earlier p p := by
  rintro (⟨a, t, h⟩ | ⟨r, a, b, p', q', h1, h2, hr⟩)
  · have := congrArg List.length h
    simp at this
  · rw [h1] at h2
    have := List.append_cancel_left h2
    cases this
    exact Nat.lt_irrefl _ hr

/-- **C104, once**: nothing happens twice at the same spot. -/
theorem C104_once (h : Hooks σ) (env : Env) (n : Nat) (ctx : ECtx) (c : ClassDef) (src : Src) (s : σ) : ((happens h env n ctx c src s).map (·.spot)).Nodup := by
  rw [List.Nodup, List.pairwise_map]
  exact (C104_order h env n ctx c src s).imp fun {a b} (hab : Earlier a.spot b.spot) (e : a.spot = b.spot) => Earlier.irrefl b.spot (by rwa [e] at hab)

/-- **C104, reasons**: nothing happens without a reason: a getter is called for a field of a model that is exported; the role function for a field, with its name and the value read; the value of a field
is exported if it is there, the role function said no to leaving it out, and its export level is not `DROP`; a scalar is converted where its value is exported, with that value. -/
theorem C104_reasons (h : Hooks σ) (env : Env) (n : Nat) (ctx : ECtx) (c : ClassDef) (src : Src) (s : σ) :
    ∀ e ∈ happens h env n ctx c src s, Cause env ctx (start c src) (happens h env n ctx c src s) e := by
  have := (run_fine h env n ctx c src s).causes [] trivial
  rwa [List.nil_append] at this

/-- **C104, completeness**: if the export succeeds, everything happened that had to happen, at every depth. -/
theorem C104_complete (h : Hooks σ) (env : Env) (n : Nat) (ctx : ECtx) (c : ClassDef) (src : Src) (s : σ) (d : Data) (hd : (runExportH h env n ctx c src s).1 = .ok d) :
    start c src ∈ happens h env n ctx c src s ∧ ∀ e ∈ happens h env n ctx c src s, Needs env ctx (happens h env n ctx c src s) e := by
  have := (run_fine h env n ctx c src s).needs [] trivial d hd
  rwa [List.nil_append] at this

/-- **C104, exceptions**: an exception of a role function or of a conversion ends the export at once and reaches the caller. -/
theorem C104_crash_ends (h : Hooks σ) (env : Env) (n : Nat) (ctx : ECtx) (c : ClassDef) (src : Src) (s : σ) (e : Event) (he : e ∈ happens h env n ctx c src s) (x : Exc) (hx : Raised e x) :
    (runExportH h env n ctx c src s).1 = .error x ∧ ∃ l, happens h env n ctx c src s = l ++ [e] := (run_fine h env n ctx c src s).crash e he x hx

/-- **C104, where exceptions come from**: an export raises only what a role function or a conversion raised, or an exception of the engine itself. -/
theorem C104_errors (h : Hooks σ) (env : Env) (n : Nat) (ctx : ECtx) (c : ClassDef) (src : Src) (s : σ) (x : Exc) (hx : (runExportH h env n ctx c src s).1 = .error x) :
    (∃ e ∈ happens h env n ctx c src s, Raised e x) ∨ Engine x := (run_fine h env n ctx c src s).origin x hx

theorem same_of_nodup {l : List Event} (h : (l.map (·.spot)).Nodup) {a b : Event} (ha : a ∈ l) (hb : b ∈ l) (hs : a.spot = b.spot) : a = b := by
  induction l with
  | nil => cases ha
  | cons x l ih =>
    rw [List.map_cons, List.nodup_cons] at h
    rcases List.mem_cons.mp ha with rfl | ha' <;> rcases List.mem_cons.mp hb with rfl | hb'
    · rfl
    · exact (h.1 (hs ▸ List.mem_map_of_mem hb')).elim
    · exact (h.1 (hs ▸ List.mem_map_of_mem ha')).elim
    · exact ih h.2 ha' hb'

theorem filter_of_nodup {l : List Event} (h : (l.map (·.spot)).Nodup) {a : Event} (ha : a ∈ l) : l.filter (fun e => e.spot = a.spot) = [a] := by
  induction l with
  | nil => cases ha
  | cons x l ih =>
    rw [List.map_cons, List.nodup_cons] at h
    rcases List.mem_cons.mp ha with rfl | ha'
    · rw [List.filter_cons_of_pos (by simp), List.filter_eq_nil_iff.mpr]
      intro e he hs
      exact h.1 ((of_decide_eq_true hs) ▸ List.mem_map_of_mem he)
    · rw [List.filter_cons_of_neg, ih h.2 ha']
      intro hs
      exact h.1 ((of_decide_eq_true hs) ▸ List.mem_map_of_mem ha')

/-- **C104, getters**: in a successful export every getter of every exported instance is called exactly once — also those of fields that the role leaves out or whose export level is `DROP` — and
nothing else happens at its spot. -/
theorem C104_getters (h : Hooks σ) (env : Env) (n : Nat) (ctx : ECtx) (c : ClassDef) (src : Src) (s : σ) (d : Data) (hd : (runExportH h env n ctx c src s).1 = .ok d) (p : Spot) (k : ClassDef) (data : Data)
    (hk : ⟨p, .begin (.model k (.inst data))⟩ ∈ happens h env n ctx c src s) (i : Nat) (fd : FieldDef) (hi : k.fields[i]? = some fd) (g : Data → Option Val) (hg : fd.fget = some g) :
    ∃ r, (happens h env n ctx c src s).filter (fun e => e.spot = p ++ [.at i, .get]) = [⟨p ++ [.at i, .get], .getter g data r⟩] := by
  obtain ⟨flt, hf, hall⟩ := (C104_complete h env n ctx c src s d hd).2 _ hk
  obtain ⟨v, b, hgot, _⟩ := hall i fd hi
  unfold Got at hgot
  dsimp only at hgot
  rw [hg] at hgot
  obtain ⟨r, hr, _⟩ := hgot
  rw [List.append_assoc] at hr
  exact ⟨r, filter_of_nodup (C104_once h env n ctx c src s) hr⟩

theorem snoc_cases {p q : Spot} {x a : Hop} {t : Spot} (h : q ++ [a] = p ++ x :: t) : (t = [] ∧ q = p ∧ a = x) ∨ ∃ t0, t = t0 ++ [a] ∧ q = p ++ x :: t0 := by
  rcases List.eq_nil_or_concat t with rfl | ⟨t0, b, rfl⟩
  · have := List.append_inj' h rfl
    exact .inl ⟨rfl, this.1, by cases this.2; rfl⟩
  · rw [List.concat_eq_append] at h ⊢
    have : p ++ x :: (t0 ++ [b]) = (p ++ x :: t0) ++ [b] := by rw [List.append_assoc]; rfl
    rw [this] at h
    have := List.append_inj' h rfl
    cases this.2
    exact .inr ⟨t0, rfl, this.1⟩

/-- The reason of something inside the value of a field is inside that value as well. -/
theorem Cause.inside {env : Env} {ctx : ECtx} {c : ClassDef} {src : Src} {evs : List Event} {e : Event} (h : Cause env ctx (start c src) evs e) {p t : Spot} (hs : e.spot = p ++ .value :: t) :
    (t = [] ∧ ∃ q i k ksrc fd flt v, q ++ [.at i] = p ∧ ⟨q, .begin (.model k ksrc)⟩ ∈ evs ∧ (k.fields : List FieldDef)[i]? = some fd ∧ roleFilter ctx k = some flt ∧ Asked evs p fd.name v false flt ∧
      exportLevelOf ctx k.exportLevel fd.field ≠ DROP) ∨
      ∃ e' ∈ evs, ∃ t', e'.spot = p ++ .value :: t' ∧ t'.length < t.length := by
  have two : ∀ {q : Spot} {i : Nat} {a : Hop} {w : Deed}, ⟨q, w⟩ ∈ evs → q ++ [.at i] ++ [a] = p ++ .value :: t → (t = [] ∧ q ++ [.at i] = p ∧ a = .value) ∨ ∃ e' ∈ evs, ∃ t', e'.spot = p ++ .value :: t' ∧ t'.length < t.length := by
    intro q i a w hm hq
    rcases snoc_cases hq with h1 | ⟨t0, rfl, h1⟩
    · exact .inl h1
    · rcases snoc_cases h1 with ⟨_, _, h2⟩ | ⟨t1, rfl, h2⟩
      · cases h2
      · exact .inr ⟨_, hm, t1, h2, by simp⟩
  have one : ∀ {q : Spot} {a : Hop} {w : Deed}, ⟨q, w⟩ ∈ evs → q ++ [a] = p ++ .value :: t → a ≠ .value → ∃ e' ∈ evs, ∃ t', e'.spot = p ++ .value :: t' ∧ t'.length < t.length := by
    intro q a w hm hq ha
    rcases snoc_cases hq with ⟨_, _, h1⟩ | ⟨t0, rfl, h1⟩
    · exact (ha h1).elim
    · exact ⟨_, hm, t0, h1, by simp⟩
  cases h with
  | top => simp [start] at hs
  | getter hm hi hg =>
    rcases two hm hs with ⟨_, _, h1⟩ | h1
    · cases h1
    · exact .inr h1
  | role hm hi hf hv =>
    rcases two hm hs with ⟨_, _, h1⟩ | h1
    · cases h1
    · exact .inr h1
  | value hm hi hf hv ha hl hne =>
    rcases two hm hs with ⟨h0, h1, _⟩ | h1
    · exact .inl ⟨h0, _, _, _, _, _, _, _, h1, hm, hi, hf, h1 ▸ ha, hl⟩
    · exact .inr h1
  | conv hm ht => exact .inr (one hm hs nofun)
  | item hm ht hl hx hi => exact .inr (one hm hs nofun)
  | entry hm ht hl hx hi => exact .inr (one hm hs nofun)
  | nested hm hn => exact .inr (one hm hs nofun)

/-- If anything happens inside the value of a field, the field was permitted. -/
theorem inside_permitted (h : Hooks σ) (env : Env) (n : Nat) (ctx : ECtx) (c : ClassDef) (src : Src) (s : σ) (p : Spot) :
    ∀ t, ∀ e ∈ happens h env n ctx c src s, e.spot = p ++ .value :: t → ∃ q i k ksrc fd flt v, q ++ [.at i] = p ∧ ⟨q, .begin (.model k ksrc)⟩ ∈ happens h env n ctx c src s ∧
      (k.fields : List FieldDef)[i]? = some fd ∧ roleFilter ctx k = some flt ∧ Asked (happens h env n ctx c src s) p fd.name v false flt ∧ exportLevelOf ctx k.exportLevel fd.field ≠ DROP := by
  suffices ∀ m t, t.length ≤ m → ∀ e ∈ happens h env n ctx c src s, e.spot = p ++ .value :: t → ∃ q i k ksrc fd flt v, q ++ [.at i] = p ∧ ⟨q, .begin (.model k ksrc)⟩ ∈ happens h env n ctx c src s ∧
      (k.fields : List FieldDef)[i]? = some fd ∧ roleFilter ctx k = some flt ∧ Asked (happens h env n ctx c src s) p fd.name v false flt ∧ exportLevelOf ctx k.exportLevel fd.field ≠ DROP from fun t => this t.length t (Nat.le_refl _)
  intro m
  induction m with
  | zero =>
    intro t ht e he hs
    rcases (C104_reasons h env n ctx c src s e he).inside hs with ⟨_, h1⟩ | ⟨e', _, t', _, hl⟩
    · exact h1
    · omega
  | succ m ih =>
    intro t ht e he hs
    rcases (C104_reasons h env n ctx c src s e he).inside hs with ⟨_, h1⟩ | ⟨e', he', t', hs', hl⟩
    · exact h1
    · exact ih t' (by omega) e' he' hs'

/-- **C104, fields left out**: where the role function says that a field is left out, nothing of its value is exported: no conversion of it, no getter and no role function inside it is called. -/
theorem C104_left_out (h : Hooks σ) (env : Env) (n : Nat) (ctx : ECtx) (c : ClassDef) (src : Src) (s : σ) (p : Spot) (f : RoleFn) (name : String) (v : Val)
    (hr : ⟨p ++ [.role], .role f name v (.ok true)⟩ ∈ happens h env n ctx c src s) : ∀ e ∈ happens h env n ctx c src s, ∀ t, e.spot ≠ p ++ .value :: t := by
  intro e he t hs
  have hn := C104_once h env n ctx c src s
  obtain ⟨q, i, k, ksrc, fd, flt, w, hq, hm, hi, hf, ha, _⟩ := inside_permitted h env n ctx c src s p t e he hs
  cases flt with
  | some g =>
    have : (⟨p ++ [.role], .role g fd.name w (.ok false)⟩ : Event) = ⟨p ++ [.role], .role f name v (.ok true)⟩ := same_of_nodup hn ha hr rfl
    cases this
  | none =>
    have hc := C104_reasons h env n ctx c src s _ hr
    generalize hx : (⟨p ++ [.role], .role f name v (.ok true)⟩ : Event) = x at hc
    cases hc with
    | top => injection hx with _ h2; cases h2
    | getter => injection hx with _ h2; cases h2
    | value => injection hx with _ h2; cases h2
    | conv => injection hx with _ h2; cases h2
    | item => injection hx with _ h2; cases h2
    | entry => injection hx with _ h2; cases h2
    | nested => injection hx with _ h2; cases h2
    | role hm' hi' hf' hv' =>
      injection hx with h1 _
      have h2 := (List.append_inj' h1 rfl).1
      rw [← hq] at h2
      have h3 := (List.append_inj' h2 rfl).1
      subst h3
      have := same_of_nodup hn hm hm' rfl
      cases this
      rw [hf] at hf'
      cases hf'

/-- **C104, dropped fields**: of a field whose export level is `DROP` nothing is exported. -/
theorem C104_dropped (h : Hooks σ) (env : Env) (n : Nat) (ctx : ECtx) (c : ClassDef) (src : Src) (s : σ) (p : Spot) (k : ClassDef) (ksrc : Src)
    (hm : ⟨p, .begin (.model k ksrc)⟩ ∈ happens h env n ctx c src s) (i : Nat) (fd : FieldDef) (hi : k.fields[i]? = some fd) (hl : exportLevelOf ctx k.exportLevel fd.field = DROP) :
    ∀ e ∈ happens h env n ctx c src s, ∀ t, e.spot ≠ p ++ .at i :: .value :: t := by
  intro e he t hs
  have hs' : e.spot = (p ++ [.at i]) ++ .value :: t := by rw [hs, List.append_assoc]; rfl
  obtain ⟨q, j, k', ksrc', fd', flt, w, hq, hm', hi', _, _, hl'⟩ := inside_permitted h env n ctx c src s _ t e he hs'
  have h1 := List.append_inj' hq rfl
  have h2 := h1.1
  have h3 := h1.2
  subst h2
  cases h3
  have := same_of_nodup (C104_once h env n ctx c src s) hm hm' rfl
  cases this
  rw [hi] at hi'
  cases hi'
  exact hl' hl

/-! ## Exceptions of getters -/

/-- The same user code, except that getters return `Undefined` where they raise. -/
def Hooks.mild (h : Hooks σ) : Hooks σ where
  getter p g d := fun s => match h.getter p g d s with
    | (.error _, s) => (.ok .undef, s)
    | (.ok v, s) => (.ok v, s)
  role := h.role
  conv := h.conv
  note := h.note

theorem readH_mild (h : Hooks σ) (p : Spot) (fd : FieldDef) (src : Src) : readH h.mild p fd src = readH h p fd src := by
  cases src with
  | map d => rfl
  | other => rfl
  | inst d =>
    unfold readH
    dsimp only
    cases fd.fget with
    | none => rfl
    | some g =>
      funext s
      unfold St.handle Hooks.mild
      dsimp only
      rcases hx : h.getter (p ++ [.get]) g d s with ⟨r, s'⟩
      rw [hx]
      cases r <;> rfl

theorem exportLoopH_mild (h : Hooks σ) (rec : HERec σ) (ctx : ECtx) (c : ClassDef) (src : Src) (p : Spot) : exportLoopH h.mild rec ctx c src p = exportLoopH h rec ctx c src p := by
  have hfields : ∀ flt fds i d, exportFieldsH h.mild rec ctx c.exportLevel flt src p i fds d = exportFieldsH h rec ctx c.exportLevel flt src p i fds d := by
    intro flt fds
    induction fds with
    | nil => intro i d; rfl
    | cons fd fds ih =>
      intro i d
      unfold exportFieldsH exportFieldH
      rw [readH_mild]
      have : (fun o => exportFieldsH h.mild rec ctx c.exportLevel flt src p (i + 1) fds (putX fd d o)) = fun o => exportFieldsH h rec ctx c.exportLevel flt src p (i + 1) fds (putX fd d o) := funext fun o => ih _ _
      rw [this]
      cases flt <;> rfl
  unfold exportLoopH exportBodyH
  have : (fun flt => exportFieldsH h.mild rec ctx c.exportLevel flt src p 0 c.fields []) = fun flt => exportFieldsH h rec ctx c.exportLevel flt src p 0 c.fields [] := funext fun flt => hfields flt _ _ _
  cases roleFilter ctx c with
  | none => rfl
  | some flt => exact congrArg (fun f => St.bind (noted h p (.model c src)) fun _ => f flt) this

theorem fieldExportH_mild (h : Hooks σ) (env : Env) (ctx : ECtx) (n : Nat) : fieldExportH h.mild env ctx n = fieldExportH h env ctx n := by
  induction n with
  | zero => rfl
  | succ n ih =>
    funext p owner f v
    unfold fieldExportH exportFH
    rw [ih]
    have hnest : ∀ r, nestedH h.mild (fieldExportH h env ctx n) ctx (p ++ [.conv]) r = nestedH h (fieldExportH h env ctx n) ctx (p ++ [.conv]) r := by
      intro r
      cases r with
      | error e => rfl
      | ok cs => exact congrArg (fun m => St.bind m fun d => St.pure (.ok (Val.dict d))) (exportLoopH_mild h (fieldExportH h env ctx n) ctx cs.1 cs.2 (p ++ [.conv]))
    have : exportTypeH h.mild (fieldExportH h env ctx n) env ctx p owner f.ty v = exportTypeH h (fieldExportH h env ctx n) env ctx p owner f.ty v := by
      cases f.ty with
      | leaf l => rfl
      | list => rfl
      | dict => rfl
      | model k => exact hnest (nested env (.model k) v)
      | poly q => exact hnest (nested env (.poly q) v)
    rw [this]
    rfl

/-- **C104, exceptions of getters**: a getter that raises is as good as one that has no value: the export has the same outcome and the same effects. -/
theorem C104_getter_errors (h : Hooks σ) (env : Env) (n : Nat) (ctx : ECtx) (c : ClassDef) (src : Src) : runExportH h.mild env n ctx c src = runExportH h env n ctx c src := by
  unfold runExportH
  rw [fieldExportH_mild, exportLoopH_mild]

/-! ## Two runs -/

/-- The same call: at the same spot, of the same code, with the same arguments. -/
def SameCall (e e' : Event) : Prop :=
  (∃ p g d r r', e = ⟨p, .getter g d r⟩ ∧ e' = ⟨p, .getter g d r'⟩ ∧ r ≠ r') ∨ (∃ p f name v r r', e = ⟨p, .role f name v r⟩ ∧ e' = ⟨p, .role f name v r'⟩ ∧ r ≠ r') ∨
    ∃ p fmt l app v r r', e = ⟨p, .conv fmt l app v r⟩ ∧ e' = ⟨p, .conv fmt l app v r'⟩ ∧ r ≠ r'

/-- Two courses of events part at a call of user code that had different results. -/
def Part (evs evs' : List Event) : Prop := ∃ l e e' t t', evs = l ++ e :: t ∧ evs' = l ++ e' :: t' ∧ SameCall e e'

/-- Two watched computations do the same, unless user code has different results. -/
def Paired (m : St (σ × List Event) α) (m' : St (τ × List Event) α) : Prop :=
  ∀ s s', ∃ r r' s1 s1' evs evs', (∀ l, m (s, l) = (r, (s1, l ++ evs))) ∧ (∀ l, m' (s', l) = (r', (s1', l ++ evs'))) ∧ ((r = r' ∧ evs = evs') ∨ Part evs evs')

theorem Part.grow {a b : List Event} (h : Part a b) (x y : List Event) : Part (a ++ x) (b ++ y) := by
  obtain ⟨l, e, e', t, t', rfl, rfl, hs⟩ := h
  exact ⟨l, e, e', t ++ x, t' ++ y, by simp, by simp, hs⟩

theorem Part.after {a b : List Event} (h : Part a b) (x : List Event) : Part (x ++ a) (x ++ b) := by
  obtain ⟨l, e, e', t, t', rfl, rfl, hs⟩ := h
  exact ⟨x ++ l, e, e', t, t', by simp, by simp, hs⟩

theorem Paired.pure (r : R α) : Paired (σ := σ) (τ := τ) (St.pure r) (St.pure r) := fun s s' =>
  ⟨r, r, s, s', [], [], fun l => by rw [List.append_nil]; rfl, fun l => by rw [List.append_nil]; rfl, .inl ⟨rfl, rfl⟩⟩

theorem Paired.bind {m : St (σ × List Event) α} {m' : St (τ × List Event) α} {k : α → St (σ × List Event) β} {k' : α → St (τ × List Event) β} (hm : Paired m m') (hk : ∀ a, Paired (k a) (k' a)) :
    Paired (St.bind m k) (St.bind m' k') := by
  intro s s'
  obtain ⟨r, r', s1, s1', evs, evs', h1, h2, h3⟩ := hm s s'
  have left : ∃ q q1 x, (∀ l, St.bind m k (s, l) = (q, (q1, l ++ (evs ++ x)))) ∧ ((∃ e, r = .error e ∧ q = .error e ∧ q1 = s1 ∧ x = []) ∨ ∃ a, r = .ok a ∧ ∀ l, k a (s1, l) = (q, (q1, l ++ x))) := by
    cases r with
    | error e => exact ⟨_, _, [], fun l => by rw [seq_error (h1 l), List.append_nil], .inl ⟨e, rfl, rfl, rfl, rfl⟩⟩
    | ok a =>
      obtain ⟨q, _, q1, _, x, _, hq, _⟩ := hk a s1 s1'
      exact ⟨q, q1, x, fun l => by rw [seq_ok (h1 l), hq, List.append_assoc], .inr ⟨a, rfl, hq⟩⟩
  have right : ∃ q q1 x, (∀ l, St.bind m' k' (s', l) = (q, (q1, l ++ (evs' ++ x)))) ∧ ((∃ e, r' = .error e ∧ q = .error e ∧ q1 = s1' ∧ x = []) ∨ ∃ a, r' = .ok a ∧ ∀ l, k' a (s1', l) = (q, (q1, l ++ x))) := by
    cases r' with
    | error e => exact ⟨_, _, [], fun l => by rw [seq_error (h2 l), List.append_nil], .inl ⟨e, rfl, rfl, rfl, rfl⟩⟩
    | ok a =>
      obtain ⟨_, q, _, q1, _, x, _, hq, _⟩ := hk a s1 s1'
      exact ⟨q, q1, x, fun l => by rw [seq_ok (h2 l), hq, List.append_assoc], .inr ⟨a, rfl, hq⟩⟩
  obtain ⟨q, q1, x, hl, hl'⟩ := left
  obtain ⟨q', q1', x', hr, hr'⟩ := right
  refine ⟨q, q', q1, q1', _, _, hl, hr, ?_⟩
  rcases h3 with ⟨rfl, rfl⟩ | h3
  · rcases hl' with ⟨e, rfl, rfl, rfl, rfl⟩ | ⟨a, rfl, ha⟩
    · rcases hr' with ⟨e', h, rfl, rfl, rfl⟩ | ⟨_, h, _⟩
      · cases h; exact .inl ⟨rfl, rfl⟩
      · cases h
    · rcases hr' with ⟨e', h, _⟩ | ⟨a', h, ha'⟩
      · cases h
      · cases h
        obtain ⟨y, y', z, z', w, w', g1, g2, g3⟩ := hk a s1 s1'
        have e1 := (ha []).symm.trans (g1 [])
        have e2 := (ha' []).symm.trans (g2 [])
        simp only [List.nil_append] at e1 e2
        cases e1
        cases e2
        rcases g3 with ⟨rfl, rfl⟩ | g3
        · exact .inl ⟨rfl, rfl⟩
        · exact .inr (g3.after _)
  · exact .inr (h3.grow _ _)

theorem Paired.call {m : St σ α} {m' : St τ α} {p : Spot} {w : R α → Deed} (hw : ∀ r r', r ≠ r' → SameCall ⟨p, w r⟩ ⟨p, w r'⟩) : Paired (watched p w m) (watched p w m') := by
  intro s s'
  refine ⟨(m s).1, (m' s').1, (m s).2, (m' s').2, [⟨p, w (m s).1⟩], [⟨p, w (m' s').1⟩], fun l => rfl, fun l => rfl, ?_⟩
  by_cases h : (m s).1 = (m' s').1
  · rw [h]; exact .inl ⟨rfl, rfl⟩
  · exact .inr ⟨[], _, _, [], [], rfl, rfl, hw _ _ h⟩

theorem Paired.note (h : Hooks σ) (h' : Hooks τ) (p : Spot) (x : Visit) : Paired (noted h.watched p x) (noted h'.watched p x) := fun s s' =>
  ⟨.ok (), .ok (), h.note p x s, h'.note p x s', _, _, fun _ => rfl, fun _ => rfl, .inl ⟨rfl, rfl⟩⟩

section paired
variable {h : Hooks σ} {h' : Hooks τ} {env : Env} {ctx : ECtx} {rec : HERec (σ × List Event)} {rec' : HERec (τ × List Event)}

theorem readH_paired (p : Spot) (fd : FieldDef) (src : Src) : Paired (readH h.watched p fd src) (readH h'.watched p fd src) := by
  cases src with
  | map d => exact Paired.pure _
  | other => exact Paired.pure _
  | inst d =>
    unfold readH
    dsimp only
    cases fd.fget with
    | none => exact Paired.pure _
    | some g =>
      intro s s'
      have half : ∀ {ρ : Type} (k : Hooks ρ) (z : ρ), ∃ v z1, ∀ l, St.handle (k.watched.getter (p ++ [.get]) g d) (fun v => St.pure (.ok v)) (fun _ => St.pure (.ok .undef)) (z, l) =
          (.ok v, (z1, l ++ [⟨p ++ [.get], .getter g d (k.getter (p ++ [.get]) g d z).1⟩])) ∧ v = (match (k.getter (p ++ [.get]) g d z).1 with | .ok w => w | .error _ => .undef) := by
        intro ρ k z
        have hw : ∀ l, k.watched.getter (p ++ [.get]) g d (z, l) = ((k.getter (p ++ [.get]) g d z).1, ((k.getter (p ++ [.get]) g d z).2, l ++ [⟨p ++ [.get], .getter g d (k.getter (p ++ [.get]) g d z).1⟩])) := fun _ => rfl
        cases hr : (k.getter (p ++ [.get]) g d z).1 with
        | error e => refine ⟨.undef, (k.getter (p ++ [.get]) g d z).2, fun l => ⟨?_, rfl⟩⟩; unfold St.handle; rw [hw, hr]; rfl
        | ok v => refine ⟨v, (k.getter (p ++ [.get]) g d z).2, fun l => ⟨?_, rfl⟩⟩; unfold St.handle; rw [hw, hr]; rfl
      obtain ⟨v, z, hv⟩ := half h s
      obtain ⟨v', z', hv'⟩ := half h' s'
      refine ⟨.ok v, .ok v', z, z', _, _, fun l => (hv l).1, fun l => (hv' l).1, ?_⟩
      by_cases he : (h.getter (p ++ [.get]) g d s).1 = (h'.getter (p ++ [.get]) g d s').1
      · left
        rw [(hv []).2, (hv' []).2, he]
        exact ⟨rfl, rfl⟩
      · exact .inr ⟨[], _, _, [], [], rfl, rfl, .inl ⟨_, _, _, _, _, rfl, rfl, he⟩⟩

theorem exportFieldH_paired (hr : ∀ p owner f v, Paired (rec p owner f v) (rec' p owner f v)) (owner : Nat) (flt : Option RoleFn) (src : Src) (p : Spot) (fd : FieldDef) :
    Paired (exportFieldH h.watched rec ctx owner flt src p fd) (exportFieldH h'.watched rec' ctx owner flt src p fd) := by
  refine (readH_paired p fd src).bind fun v => Paired.bind (m := askH h.watched p fd.name v flt) (m' := askH h'.watched p fd.name v flt) ?_ fun b => ?_
  · cases flt with
    | none => exact Paired.pure _
    | some g => exact Paired.call fun r r' hn => .inr (.inl ⟨_, _, _, _, _, _, rfl, rfl, hn⟩)
  · cases b with
    | true => exact Paired.pure _
    | false =>
      rw [if_neg nofun, if_neg nofun]
      unfold permitH
      by_cases hl : exportLevelOf ctx owner fd.field = DROP
      · rw [if_pos hl, if_pos hl]; exact Paired.pure _
      · rw [if_neg hl, if_neg hl]
        refine Paired.bind ?_ fun w => Paired.pure _
        cases v.isEmpty with
        | true => exact Paired.pure _
        | false => exact hr _ _ _ _

theorem exportLoopH_paired (hr : ∀ p owner f v, Paired (rec p owner f v) (rec' p owner f v)) (c : ClassDef) (src : Src) (p : Spot) :
    Paired (exportLoopH h.watched rec ctx c src p) (exportLoopH h'.watched rec' ctx c src p) := by
  refine (Paired.note h h' p _).bind fun _ => ?_
  unfold exportBodyH
  cases roleFilter ctx c with
  | none => exact Paired.pure _
  | some flt =>
    dsimp only
    generalize c.fields = fds
    suffices ∀ i d, Paired (exportFieldsH h.watched rec ctx c.exportLevel flt src p i fds d) (exportFieldsH h'.watched rec' ctx c.exportLevel flt src p i fds d) from this 0 []
    induction fds with
    | nil => intro i d; exact Paired.pure _
    | cons fd fds ih => intro i d; exact (exportFieldH_paired hr _ _ _ _ _).bind fun o => ih _ _

theorem nestedH_paired (hr : ∀ p owner f v, Paired (rec p owner f v) (rec' p owner f v)) (p : Spot) (r : R (ClassDef × Src)) : Paired (nestedH h.watched rec ctx p r) (nestedH h'.watched rec' ctx p r) := by
  cases r with
  | error e => exact Paired.pure _
  | ok cs => exact (exportLoopH_paired hr _ _ _).bind fun d => Paired.pure _

theorem exportFH_paired (hr : ∀ p owner f v, Paired (rec p owner f v) (rec' p owner f v)) (p : Spot) (owner : Nat) (f : Field) (v : Val) :
    Paired (exportFH h.watched rec env ctx p owner f v) (exportFH h'.watched rec' env ctx p owner f v) := by
  refine (Paired.note h h' p _).bind fun _ => ?_
  cases f.ty with
  | leaf l => exact Paired.call fun r r' hn => .inr (.inr ⟨_, _, _, _, _, _, _, rfl, rfl, hn⟩)
  | list inner mn mx =>
    unfold exportTypeH
    dsimp only
    by_cases hl : exportLevelOf ctx owner inner = DROP
    · rw [if_pos hl, if_pos hl]; exact Paired.pure _
    · rw [if_neg hl, if_neg hl]
      cases iterItems env v with
      | none => exact Paired.pure _
      | some xs =>
        refine Paired.bind ?_ fun ys => Paired.pure _
        generalize 0 = i
        induction xs generalizing i with
        | nil => exact Paired.pure _
        | cons x xs ih => exact (hr _ _ _ _).bind fun y => (ih _).bind fun ys => Paired.pure _
  | dict inner co =>
    unfold exportTypeH
    dsimp only
    by_cases hl : exportLevelOf ctx owner inner = DROP
    · rw [if_pos hl, if_pos hl]; exact Paired.pure _
    · rw [if_neg hl, if_neg hl]
      cases iterPairs env v with
      | none => exact Paired.pure _
      | some xs =>
        refine Paired.bind ?_ fun ys => Paired.pure _
        generalize 0 = i
        induction xs generalizing i with
        | nil => exact Paired.pure _
        | cons kx xs ih => exact (hr _ _ _ _).bind fun y => (ih _).bind fun ys => Paired.pure _
  | model k => exact nestedH_paired hr _ _
  | poly q => exact nestedH_paired hr _ _

theorem fieldExportH_paired (h : Hooks σ) (h' : Hooks τ) (n : Nat) : ∀ p owner f v, Paired (fieldExportH h.watched env ctx n p owner f v) (fieldExportH h'.watched env ctx n p owner f v) := by
  induction n with
  | zero => intro p owner f v; exact Paired.pure _
  | succ n ih => exact exportFH_paired ih

end paired

/-- **C104, nothing else matters**: two exports of the same data, with any user code in any states, take the same course and have the same outcome, unless they come to a call of the same code with the
same arguments at the same spot that has different results. -/
theorem C104_determined (h : Hooks σ) (h' : Hooks τ) (env : Env) (n : Nat) (ctx : ECtx) (c : ClassDef) (src : Src) (s : σ) (s' : τ) :
    ((runExportH h env n ctx c src s).1 = (runExportH h' env n ctx c src s').1 ∧ happens h env n ctx c src s = happens h' env n ctx c src s') ∨
      ∃ l e e' t t', happens h env n ctx c src s = l ++ e :: t ∧ happens h' env n ctx c src s' = l ++ e' :: t' ∧ SameCall e e' := by
  have hp : Paired (runExportH h.watched env n ctx c src) (runExportH h'.watched env n ctx c src) := exportLoopH_paired (fieldExportH_paired h h' n) c src []
  obtain ⟨r, r', s1, s1', evs, evs', h1, h2, h3⟩ := hp s s'
  have e1 : happens h env n ctx c src s = evs := by unfold happens; rw [h1]; rfl
  have e2 : happens h' env n ctx c src s' = evs' := by unfold happens; rw [h2]; rfl
  rw [e1, e2]
  rcases h3 with ⟨h3, h4⟩ | h3
  · left
    rw [← (C104_watching h env n ctx c src s).1, ← (C104_watching h' env n ctx c src s').1, h1, h2]
    exact ⟨h3, h4⟩
  · exact .inr h3

/-! ## The hypotheses are met -/

namespace Samples

open Verif.Samples

/-- A calculated field that cannot be computed without `qty`. -/
def half : FieldDef where
  name := "half"
  field := intF
  fget := some fun d => match rawValue d "qty" with | .int i => some (.int (i / 2)) | _ => none

/-- `secret` is computed; the role leaves it out. -/
def secret : FieldDef where
  name := "secret"
  field := intF
  fget := some fun _ => some (.int 42)

/-- Two calculated fields, a list, and a nested model of the same class. -/
def box : ClassDef where
  name := "Box"
  fields := [half, secret, { name := "qty", field := intF }, { name := "sizes", field := .mk (.list intF none none) {} }, { name := "inner", field := .mk (.model "Box") {} }]
  roles := [("default", Role.fn ⟨.black, ["secret"]⟩)]

/-- The class table. -/
def boxes : Env where
  cls k := if k = "Box" then some box else none
  isSub a b := a == b
  subs _ := []

/-- User code that counts its calls and otherwise does what it is meant to do. -/
def counting : Hooks Nat where
  getter _ g d := fun s => ((match g d with | some v => .ok v | none => .error (.other "KeyError")), s + 1)
  role _ f name v := fun s => (.ok (f name v), s + 1)
  conv _ fmt l app v := fun s => (leafX l app v fmt, s + 1)

theorem counting_steady : counting.Steady where
  getter p g d s := by
    unfold counting
    dsimp only
    cases g d with
    | none => exact ⟨_, rfl⟩
    | some v => rfl
  role _ _ _ _ := fun _ => rfl
  conv _ _ _ _ _ := fun _ => rfl

/-- The data of a box in a box; the inner one has no `qty`. -/
def boxData : Data := [(.str "qty", .int 9), (.str "sizes", .list [.int 1, .none]), (.str "inner", .inst "Box" [])]

/-- Where something happens, and whether it is a call of user code. -/
def shown (l : List Event) : List (Spot × Bool) := l.map fun e => (e.spot, match e.deed with | .begin _ => false | _ => true)

/-- **C104, an example**: the getter of the field that is left out is called, at both depths; `None` items of lists are converted, `None` and undefined fields are not. -/
theorem C104_witness_events :
    shown (happens counting boxes 9 {} box (.inst boxData) 0) =
      [([], false),
       ([.at 0, .get], true), ([.at 0, .role], true), ([.at 0, .value], false), ([.at 0, .value, .conv], true),
       ([.at 1, .get], true), ([.at 1, .role], true),
       ([.at 2, .role], true), ([.at 2, .value], false), ([.at 2, .value, .conv], true),
       ([.at 3, .role], true), ([.at 3, .value], false), ([.at 3, .value, .at 0], false), ([.at 3, .value, .at 0, .conv], true), ([.at 3, .value, .at 1], false), ([.at 3, .value, .at 1, .conv], true),
       ([.at 4, .role], true), ([.at 4, .value], false), ([.at 4, .value, .conv], false),
       ([.at 4, .value, .conv, .at 0, .get], true), ([.at 4, .value, .conv, .at 0, .role], true),
       ([.at 4, .value, .conv, .at 1, .get], true), ([.at 4, .value, .conv, .at 1, .role], true),
       ([.at 4, .value, .conv, .at 2, .role], true), ([.at 4, .value, .conv, .at 3, .role], true), ([.at 4, .value, .conv, .at 4, .role], true)] := by
  decide +kernel

/-- The export of the example succeeds, although the inner `half` raises. -/
example : (runExportH counting boxes 9 {} box (.inst boxData) 0).1 =
    .ok [(.str "half", .int 4), (.str "qty", .int 9), (.str "sizes", .list [.int 1, .none]), (.str "inner", .dict [])] := rfl

/-- A conversion that raises. -/
example : (runExportH { counting with conv := fun _ _ _ _ _ s => (.error (.other "OSError"), s) } boxes 9 {} box (.inst boxData) 0).1 = .error (.other "OSError") := rfl

/-- A class with one field, which is left out. -/
def closed : ClassDef where
  name := "Closed"
  fields := [secret]
  roles := [("default", fun _ _ => true)]

/-- A field left out, to which the theorems apply. -/
example : (⟨[.at 0] ++ [.role], .role (fun _ _ => true) "secret" (.int 42) (.ok true)⟩ : Event) ∈ happens counting boxes 9 {} closed (.inst []) 0 := .tail _ (.tail _ (.head _))

/-- A field dropped, and a getter that is called nevertheless. -/
example : (runExportH counting boxes 9 { level := some DROP } box (.inst boxData) 0).1 = .ok [] ∧ shown (happens counting boxes 9 { level := some DROP } box (.inst boxData) 0) =
    [([], false), ([.at 0, .get], true), ([.at 0, .role], true), ([.at 1, .get], true), ([.at 1, .role], true), ([.at 2, .role], true), ([.at 3, .role], true), ([.at 4, .role], true)] :=
  ⟨rfl, by decide +kernel⟩

end Samples

end Verif.Exports
